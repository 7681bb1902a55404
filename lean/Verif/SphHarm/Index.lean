import Verif.SphHarm.Model
import Mathlib.Data.Real.Sqrt
import Mathlib.Data.Real.Archimedean

/-! C26 (index bijection), the parity form of C27, and C28 (schemes inferred from coefficients). -/
namespace Verif.SphHarm

theorem indexL_index {l m : ℤ} (_hl : 0 ≤ l) (h : |m| ≤ l) : indexL (index l m).toNat = l := by
  rw [indexL, index]
  obtain ⟨h1, h2⟩ := abs_le.1 h
  obtain ⟨k, rfl⟩ : ∃ k : ℕ, l = k := ⟨l.toNat, by omega⟩
  obtain ⟨n, hn⟩ : ∃ n : ℕ, (k : ℤ) * (k + 1) + m = n := ⟨((k : ℤ) * (k + 1) + m).toNat, by
    rw [Int.toNat_of_nonneg]; nlinarith⟩
  rw [hn, Int.toNat_natCast]
  have : Nat.sqrt n = k := by
    symm
    rw [Nat.eq_sqrt]
    constructor
    · zify; nlinarith
    · zify; nlinarith
  rw [this]

/-- C26: `index` maps the pairs |m| ≤ l ≤ lmax into 0..size()-1, and `index_l`, `index_m` recover the pair. -/
theorem C26_decode {l m lmax : ℤ} (hm : |m| ≤ l) (hl : l ≤ lmax) :
    0 ≤ index l m ∧ index l m < (lmax + 1) * (lmax + 1) ∧
    indexL (index l m).toNat = l ∧ indexM (index l m).toNat = m := by
  have h0 : 0 ≤ l := le_trans (abs_nonneg m) hm
  have hL := indexL_index h0 hm
  obtain ⟨h1, h2⟩ := abs_le.1 hm
  have hn : 0 ≤ index l m := by rw [index]; nlinarith
  refine ⟨hn, ?_, hL, ?_⟩
  · rw [index]; nlinarith
  · rw [indexM]
    rw [hL, Int.toNat_of_nonneg hn, index]; ring

/-- C26: every number 0..size()-1 is the index of the decoded pair, which is in range. -/
theorem C26_encode (c : ℕ) (lmax : ℤ) (_h0 : 0 ≤ lmax) (hc : (c : ℤ) < (lmax + 1) * (lmax + 1)) :
    |indexM c| ≤ indexL c ∧ indexL c ≤ lmax ∧ index (indexL c) (indexM c) = c := by
  have a : (Nat.sqrt c : ℤ) * Nat.sqrt c ≤ c := by exact_mod_cast Nat.sqrt_le c
  have b : (c : ℤ) ≤ Nat.sqrt c * Nat.sqrt c + Nat.sqrt c + Nat.sqrt c := by exact_mod_cast Nat.sqrt_le_add c
  refine ⟨?_, ?_, ?_⟩
  · rw [abs_le, indexM, indexL]; constructor <;> nlinarith
  · rw [indexL]; by_contra hh; push Not at hh; nlinarith
  · rw [index, indexM]; ring

/-- C26: the index is one-to-one. -/
theorem C26_injective {l m l' m' : ℤ} (h : |m| ≤ l) (h' : |m'| ≤ l') (e : index l m = index l' m') :
    l = l' ∧ m = m' := by
  obtain ⟨-, -, a, b⟩ := C26_decode h le_rfl
  obtain ⟨-, -, a', b'⟩ := C26_decode h' le_rfl
  rw [e] at a b
  exact ⟨a.symm.trans a', b.symm.trans b'⟩

example : index 3 (-2) = 10 ∧ indexL 10 = 3 ∧ indexM 10 = -2 := by
  obtain ⟨-, -, a, b⟩ := C26_decode (l := 3) (m := -2) (lmax := 3) (by norm_num) le_rfl
  exact ⟨by norm_num [index], a, b⟩

/-- The truncation `(int)sqrt(c)` of a 32-bit unsigned integer is exact for any monotone rounding of the square root
that keeps integers and errs by less than 2^-18 below 2^16, so certainly for IEEE doubles (error at most 2^-38). -/
theorem index_l_rounding (rnd : ℝ → ℝ) (mono : Monotone rnd) (int : ∀ k : ℕ, k ≤ 2 ^ 16 → rnd k = k)
    (err : ∀ x : ℝ, 0 ≤ x → x < 2 ^ 16 → |rnd x - x| < 1 / 2 ^ 18) (c : ℕ) (hc : c < 2 ^ 32) :
    ⌊rnd (Real.sqrt c)⌋ = indexL c := by
  have hs := Nat.sqrt_le' c
  have hs2 := Nat.lt_succ_sqrt' c
  rw [Nat.succ_eq_add_one] at hs2
  set s := Nat.sqrt c with hsd
  have hs16 : s < 2 ^ 16 := by
    by_contra hh
    push Not at hh
    have := Nat.pow_le_pow_left hh 2
    omega
  have h1 : (s : ℝ) ≤ Real.sqrt c := by
    apply Real.le_sqrt_of_sq_le; exact_mod_cast hs
  have hcs : (c : ℝ) ≤ ((s : ℝ) + 1) ^ 2 - 1 := by
    have : c + 1 ≤ (s + 1) ^ 2 := hs2
    have : ((c + 1 : ℕ) : ℝ) ≤ ((s + 1) ^ 2 : ℕ) := by exact_mod_cast this
    push_cast at this
    linarith
  have hsr : (s : ℝ) + 1 ≤ 2 ^ 16 := by
    have : s + 1 ≤ 2 ^ 16 := hs16
    exact_mod_cast this
  have h2 : Real.sqrt c ≤ s + 1 - 1 / 2 ^ 17 := by
    apply Real.sqrt_le_iff.2
    have h0 : (0 : ℝ) ≤ s := Nat.cast_nonneg s
    constructor
    · nlinarith
    · nlinarith
  have h3 : Real.sqrt c < 2 ^ 16 := by
    have : (0 : ℝ) < 1 / 2 ^ 17 := by positivity
    linarith
  rw [Int.floor_eq_iff]
  have e := abs_lt.1 (err _ (Real.sqrt_nonneg _) h3)
  constructor
  · have := mono h1
    rw [int s hs16.le] at this
    rw [indexL, ← hsd]; exact_mod_cast this
  · rw [indexL, ← hsd]
    push_cast
    have : (1 : ℝ) / 2 ^ 18 < 1 / 2 ^ 17 := by norm_num
    linarith [e.2]

theorem mem_forLoop (step : ℕ) (hs : 0 < step) (lo hi x : ℤ) :
    x ∈ forLoop step lo hi ↔ lo ≤ x ∧ x ≤ hi ∧ (step : ℤ) ∣ x - lo := by
  induction lo using forLoop.induct (step := step) (hi := hi) with
  | case1 lo h ih =>
    rw [forLoop]
    simp only [h, hs, and_self, dite_true, List.mem_cons]
    rw [ih]
    constructor
    · rintro (rfl | ⟨a, b, c⟩)
      · exact ⟨le_rfl, h.1, by simp⟩
      · refine ⟨by omega, b, ?_⟩
        have := dvd_add c (dvd_refl (step : ℤ))
        have e : x - (lo + step) + step = x - lo := by ring
        rwa [e] at this
    · rintro ⟨a, b, c⟩
      rcases eq_or_lt_of_le a with h1 | h1
      · exact Or.inl h1.symm
      · right
        obtain ⟨k, hk⟩ := c
        have hk1 : 1 ≤ k := by
          by_contra hh
          push Not at hh
          have : k ≤ 0 := by omega
          nlinarith
        refine ⟨by nlinarith, b, ⟨k - 1, ?_⟩⟩
        rw [mul_sub]; omega
  | case2 lo h =>
    rw [forLoop]
    simp only [h, dite_false, List.not_mem_nil, false_iff]
    rintro ⟨a, b, _⟩
    exact h ⟨by omega, hs⟩

theorem nodup_forLoop (step : ℕ) (lo hi : ℤ) : (forLoop step lo hi).Nodup := by
  induction lo using forLoop.induct (step := step) (hi := hi) with
  | case1 lo h ih =>
    rw [forLoop]
    simp only [h, and_self, dite_true, List.nodup_cons]
    refine ⟨?_, ih⟩
    rw [mem_forLoop step h.2]
    omega
  | case2 lo h =>
    rw [forLoop]
    simp only [h, dite_false, List.nodup_nil]

theorem cOdd_iff (m : ℤ) : cOdd m = true ↔ ¬ Even m := by
  rw [cOdd, bne_iff_ne, ne_eq, not_iff_not, Int.even_iff]
  constructor <;> intro h
  · have := Int.dvd_of_tmod_eq_zero h; omega
  · exact Int.tmod_eq_zero_of_dvd (Int.dvd_of_emod_eq_zero h)

theorem cOdd_false_iff (m : ℤ) : cOdd m = false ↔ Even m := by
  have := cOdd_iff m
  cases h : cOdd m <;> simp_all

/-! ### Finite facts about flag sets (all 64 sets are checked) -/

theorem augment_flags (s : Sym) (hs : s ≤ 63) (lmax mmax : ℤ) :
    isX (augment lmax mmax s) = (isX s || decide (mmax = 0)) ∧
    isY (augment lmax mmax s) = (isY s || decide (mmax = 0)) ∧
    isZ (augment lmax mmax s) = (isZ s || decide (lmax = 0)) ∧
    isRefl (augment lmax mmax s) = (isRefl s || decide (lmax = 0)) := by
  rw [augment]
  by_cases h1 : mmax = 0 <;> by_cases h2 : lmax = 0 <;> simp only [h1, h2, if_true, if_false] <;>
    interval_cases s <;> decide

theorem isBi_eq (s : Sym) : isBi s = (isZ s && isRefl s) := by
  rw [isBi, isZ, isRefl, has, has, has, Bool.eq_iff_iff, Bool.and_eq_true, beq_iff_eq, beq_iff_eq, beq_iff_eq]
  constructor
  · intro h
    constructor
    · calc s &&& 4 = s &&& (12 &&& 4) := rfl
        _ = (s &&& 12) &&& 4 := (Nat.and_assoc s 12 4).symm
        _ = 4 := by rw [h]; decide
    · calc s &&& 8 = s &&& (12 &&& 8) := rfl
        _ = (s &&& 12) &&& 8 := (Nat.and_assoc s 12 8).symm
        _ = 8 := by rw [h]; decide
  · rintro ⟨a, b⟩
    calc s &&& 12 = s &&& (4 ||| 8) := rfl
      _ = (s &&& 4) ||| (s &&& 8) := Nat.and_or_distrib_left s 4 8
      _ = 12 := by rw [a, b]; decide

/-- The combinatorial meaning of the flags: which (l,m) may be nonzero under the flagged reflections. -/
def Allowed (s : Sym) (l m : ℤ) : Prop :=
  (isX s = true → (m < 0 ↔ ¬ Even m)) ∧ (isY s = true → 0 ≤ m) ∧ (isZ s = true → Even (l + m)) ∧
  (isRefl s = true → Even l)

theorem mkIndices_ok {lmax mmax : ℤ} {s : Sym} {ind : Indices} (h : mkIndices lmax mmax s = .ok ind) :
    0 ≤ mmax ∧ mmax ≤ lmax ∧ s ≤ 63 ∧ (isX s && isY s && isZ s && !isRefl s) = false ∧
    ind = ⟨lmax, mmax, if isZ s || isRefl s then 2 else 1, augment lmax mmax s,
      (List.range (2 * mmax + 1).toNat).map
        (fun (i : ℕ) => lminFor lmax (augment lmax mmax s) ((i : ℤ) - mmax))⟩ := by
  rw [mkIndices] at h
  simp only at h
  by_cases h1 : lmax < 0 ∨ mmax < 0 ∨ mmax > lmax
  · rw [if_pos h1] at h; cases h
  rw [if_neg h1] at h
  by_cases h2 : isUnknown s = true
  · rw [if_pos h2] at h; cases h
  rw [if_neg h2] at h
  by_cases h3 : (isX s && isY s && isZ s && !isRefl s) = true
  · rw [if_pos h3] at h; cases h
  rw [if_neg h3] at h
  push Not at h1
  refine ⟨h1.2.1, h1.2.2, ?_, ?_, ?_⟩
  · rw [isUnknown, decide_eq_true_eq] at h2; exact Nat.le_of_not_lt h2
  · simpa using h3
  · cases h; rfl

/-- When the constructor accepts. -/
theorem mkIndices_accepts {lmax mmax : ℤ} {s : Sym} (h0 : 0 ≤ mmax) (h1 : mmax ≤ lmax) (h2 : s ≤ 63)
    (h3 : (isX s && isY s && isZ s && !isRefl s) = false) : ∃ ind, mkIndices lmax mmax s = .ok ind := by
  rw [mkIndices]
  simp only
  rw [if_neg (by omega), if_neg (by rw [isUnknown, decide_eq_true_eq]; exact Nat.not_lt_of_le h2), if_neg (by rw [h3]; simp)]
  exact ⟨_, rfl⟩

theorem lmin_eq {lmax mmax : ℤ} {s : Sym} {ind : Indices} (h : mkIndices lmax mmax s = .ok ind) (m : ℤ)
    (h1 : -mmax ≤ m) (h2 : m ≤ mmax) : ind.lmin m = lminFor lmax (augment lmax mmax s) m := by
  obtain ⟨-, -, -, -, rfl⟩ := mkIndices_ok h
  rw [Indices.lmin]
  simp only
  rw [if_pos ⟨h1, h2⟩, List.getD_eq_getElem?_getD, List.getElem?_map, List.getElem?_range (by omega)]
  simp only [Option.map_some, Option.getD_some]
  congr 1
  omega

/-- The loop over an index scheme visits exactly the pairs in range allowed by the requested flags. -/
theorem mem_visited {lmax mmax : ℤ} {s : Sym} {ind : Indices} (h : mkIndices lmax mmax s = .ok ind) (l m : ℤ) :
    (l, m) ∈ ind.visited ↔ |m| ≤ l ∧ l ≤ lmax ∧ |m| ≤ mmax ∧ Allowed s l m := by
  obtain ⟨h0, hml, hs, -, hind⟩ := mkIndices_ok h
  obtain ⟨aX, aY, aZ, aR⟩ := augment_flags s hs lmax mmax
  set s' := augment lmax mmax s with hs'
  have hmm : ind.mmin = if isY s' then 0 else -mmax := by rw [hind, Indices.mmin]
  have hM : ind.mmax = mmax := by rw [hind]
  have hL : ind.lmax = lmax := by rw [hind]
  have hS : ind.step = if isZ s || isRefl s then 2 else 1 := by rw [hind]
  rw [Indices.visited]
  have key : (l, m) ∈ ((forLoop 1 ind.mmin ind.mmax).flatMap fun m =>
      (forLoop ind.step (ind.lmin m) ind.lmax).map fun l => (l, m)) ↔
      (ind.mmin ≤ m ∧ m ≤ mmax) ∧ l ∈ forLoop ind.step (ind.lmin m) lmax := by
    rw [List.mem_flatMap]
    constructor
    · rintro ⟨x, hx, hy⟩
      rw [List.mem_map] at hy
      obtain ⟨y, hy, e⟩ := hy
      cases e
      rw [mem_forLoop 1 (by norm_num), hM] at hx
      exact ⟨⟨hx.1, hx.2.1⟩, hL ▸ hy⟩
    · rintro ⟨⟨a, b⟩, c⟩
      refine ⟨m, ?_, ?_⟩
      · rw [mem_forLoop 1 (by norm_num), hM]; exact ⟨a, b, by simp⟩
      · rw [List.mem_map]; exact ⟨l, hL ▸ c, rfl⟩
  rw [key]
  by_cases hr : |m| ≤ mmax
  swap
  · constructor
    · rintro ⟨⟨h1, h2⟩, h3⟩
      exfalso; apply hr
      rw [abs_le]
      refine ⟨?_, h2⟩
      rw [hmm] at h1
      by_cases hy : isY s' = true
      · rw [if_pos hy] at h1; omega
      · rw [if_neg hy] at h1; exact h1
    · rintro ⟨-, -, h, -⟩; exact absurd h hr
  obtain ⟨r1, r2⟩ := abs_le.1 hr
  have hlm := lmin_eq h m r1 r2
  have hstep : 0 < ind.step := by rw [hS]; by_cases hh : (isZ s || isRefl s) = true <;> simp [hh]
  rw [mem_forLoop ind.step hstep, hlm, ← hs', lminFor]
  rw [isBi_eq, hmm, hS, Allowed]
  have hev := cOdd_iff m
  have hev' := cOdd_false_iff m
  have habs : Even |m| ↔ Even m := even_abs
  have hab : |m| = m ∨ |m| = -m := abs_choice m
  have hnn : 0 ≤ |m| := abs_nonneg m
  have hneg : m < 0 → |m| = -m := abs_of_neg
  have hpos : 0 ≤ m → |m| = m := abs_of_nonneg
  rw [aX, aY, aZ, aR]
  by_cases z1 : mmax = 0
  · -- only m = 0
    have m0 : m = 0 := by omega
    subst m0
    cases hx : isX s <;> cases hy : isY s <;> cases hz : isZ s <;> cases hrf : isRefl s <;>
      by_cases z2 : lmax = 0 <;>
      simp_all [Int.even_iff, cOdd] <;> omega
  · have z2 : lmax ≠ 0 := by omega
    simp only [z1, z2, decide_false, Bool.or_false]
    by_cases hm : m < 0
    · have e := hneg hm
      by_cases hodd : Even m
      · have o : cOdd m = false := hev'.2 hodd
        have ho := Int.even_iff.1 hodd
        cases hx : isX s <;> cases hy : isY s <;> cases hz : isZ s <;> cases hrf : isRefl s <;>
          simp [hm, o, e, Int.even_iff, ho] <;> omega
      · have o : cOdd m = true := hev.2 hodd
        rw [Int.even_iff] at hodd
        cases hx : isX s <;> cases hy : isY s <;> cases hz : isZ s <;> cases hrf : isRefl s <;>
          simp [hm, o, e, Int.even_iff, hodd] <;> omega
    · push Not at hm
      have e := hpos hm
      by_cases hodd : Even m
      · have o : cOdd m = false := hev'.2 hodd
        have ho := Int.even_iff.1 hodd
        cases hx : isX s <;> cases hy : isY s <;> cases hz : isZ s <;> cases hrf : isRefl s <;>
          simp [hm, not_lt.2 hm, o, e, Int.even_iff, ho] <;> omega
      · have o : cOdd m = true := hev.2 hodd
        rw [Int.even_iff] at hodd
        cases hx : isX s <;> cases hy : isY s <;> cases hz : isZ s <;> cases hrf : isRefl s <;>
          simp [hm, not_lt.2 hm, o, e, Int.even_iff, hodd] <;> omega

/-- No coefficient is processed twice. -/
theorem nodup_visited (ind : Indices) : ind.visited.Nodup := by
  rw [Indices.visited, List.nodup_flatMap]
  constructor
  · intro m _
    exact (nodup_forLoop _ _ _).map (fun a b h => by cases h; rfl)
  · apply List.Pairwise.imp _ (nodup_forLoop 1 _ _)
    intro a b hab x hx hy
    rw [List.mem_map] at hx hy
    obtain ⟨l, -, rfl⟩ := hx
    obtain ⟨l', -, e⟩ := hy
    cases e
    exact hab rfl

/-- Every processed coefficient lies inside the array of size() coefficients. -/
theorem visited_in_array {lmax mmax : ℤ} {s : Sym} {ind : Indices} (h : mkIndices lmax mmax s = .ok ind) {l m : ℤ}
    (hv : (l, m) ∈ ind.visited) : 0 ≤ index l m ∧ index l m < ind.size := by
  obtain ⟨h1, h2, -, -⟩ := (mem_visited h l m).1 hv
  obtain ⟨a, b, -, -⟩ := C26_decode h1 h2
  refine ⟨a, ?_⟩
  rw [Indices.size, (mkIndices_ok h).2.2.2.2]
  exact b

/-! ### C28 -/

theorem clear_flags : ∀ s < 64, ∀ f ∈ [1, 2, 4, 8, 16, 32],
    clear s f < 64 ∧ ∀ g ∈ [1, 2, 4, 8, 16, 32], has (clear s f) g = (has s g && (f != g)) := by
  decide +kernel

theorem symStep_flags (c : ℕ) (s : Sym) (hs : s < 64) :
    symStep c s < 64 ∧
    isX (symStep c s) = (isX s && !(decide (indexM c < 0) ^^ cOdd (indexM c))) ∧
    isY (symStep c s) = (isY s && !decide (indexM c < 0)) ∧
    isZ (symStep c s) = (isZ s && !(Int.tmod (indexL c + indexM c) 2 == 1)) ∧
    isRefl (symStep c s) = (isRefl s && !(Int.tmod (indexL c) 2 == 1)) := by
  have key : ∀ (b : Bool) (s : Sym) (f : ℕ), f ∈ [1, 2, 4, 8, 16, 32] → s < 64 →
      (if b = true then clear s f else s) < 64 ∧ ∀ g ∈ [1, 2, 4, 8, 16, 32],
      has (if b = true then clear s f else s) g = (has s g && !(b && f == g)) := by
    intro b s f hf hs
    cases b
    · simp [hs]
    · simp only [if_true, Bool.true_and]
      refine ⟨(clear_flags s hs f hf).1, fun g hg => ?_⟩
      rw [(clear_flags s hs f hf).2 g hg]; rfl
  rw [symStep]
  have e1 : ∀ s' : Sym, (if indexM c < 0 then clear s' 2 else s') =
      if decide (indexM c < 0) = true then clear s' 2 else s' := fun s' => by simp
  have e2 : ∀ s' : Sym, (if indexL c > 0 then clear s' 32 else s') =
      if decide (indexL c > 0) = true then clear s' 32 else s' := fun s' => by simp
  rw [e2, e1]
  generalize (Int.tmod (indexL c) 2 == 1) = b1
  generalize (Int.tmod (indexL c + indexM c) 2 == 1) = b2
  generalize decide (indexM c < 0) = b3
  generalize cOdd (indexM c) = b4
  generalize decide (indexL c > 0) = b5
  generalize (indexM c != 0) = b6
  obtain ⟨k1, q1⟩ := key b1 s 8 (by simp) hs
  obtain ⟨k2, q2⟩ := key b3 _ 2 (by simp) k1
  obtain ⟨k3, q3⟩ := key b2 _ 4 (by simp) k2
  obtain ⟨k4, q4⟩ := key (b3 ^^ b4) _ 1 (by simp) k3
  obtain ⟨k5, q5⟩ := key b6 _ 16 (by simp) k4
  obtain ⟨k6, q6⟩ := key b5 _ 32 (by simp) k5
  refine ⟨k6, ?_, ?_, ?_, ?_⟩
  · rw [isX, q6 1 (by simp), q5 1 (by simp), q4 1 (by simp), q3 1 (by simp), q2 1 (by simp), q1 1 (by simp)]
    simp [isX]
  · rw [isY, q6 2 (by simp), q5 2 (by simp), q4 2 (by simp), q3 2 (by simp), q2 2 (by simp), q1 2 (by simp)]
    simp [isY]
  · rw [isZ, q6 4 (by simp), q5 4 (by simp), q4 4 (by simp), q3 4 (by simp), q2 4 (by simp), q1 4 (by simp)]
    simp [isZ]
  · rw [isRefl, q6 8 (by simp), q5 8 (by simp), q4 8 (by simp), q3 8 (by simp), q2 8 (by simp), q1 8 (by simp)]
    simp [isRefl]

theorem tmod_one_iff {x : ℤ} (h : 0 ≤ x) : (Int.tmod x 2 == 1) = true ↔ ¬ Even x := by
  rw [beq_iff_eq, Int.tmod_eq_emod_of_nonneg h, Int.even_iff]; omega

theorem allowed_symStep (c : ℕ) (s : Sym) (hs : s < 64) : 
    (isX (symStep c s) = true ↔ isX s = true ∧ (indexM c < 0 ↔ ¬ Even (indexM c))) ∧
    (isY (symStep c s) = true ↔ isY s = true ∧ 0 ≤ indexM c) ∧
    (isZ (symStep c s) = true ↔ isZ s = true ∧ Even (indexL c + indexM c)) ∧
    (isRefl (symStep c s) = true ↔ isRefl s = true ∧ Even (indexL c)) := by
  obtain ⟨-, x, y, z, r⟩ := symStep_flags c s hs
  have hc := C26_encode c (c : ℤ) (by omega) (by nlinarith)
  have hl : 0 ≤ indexL c := le_trans (abs_nonneg _) hc.1
  have hlm : 0 ≤ indexL c + indexM c := by have := (abs_le.1 hc.1).1; omega
  rw [x, y, z, r]
  have t1 := tmod_one_iff hl
  have t2 := tmod_one_iff hlm
  have o := cOdd_iff (indexM c)
  refine ⟨?_, ?_, ?_, ?_⟩
  · rw [← o]
    by_cases hm : indexM c < 0 <;> cases cOdd (indexM c) <;> simp [hm]
  · by_cases hm : indexM c < 0 <;> simp [hm]; omega
  · rw [Bool.and_eq_true, Bool.not_eq_true', ← Bool.not_eq_true, t2, not_not]
  · rw [Bool.and_eq_true, Bool.not_eq_true', ← Bool.not_eq_true, t1, not_not]

/-- What the loop over coefficients returns. -/
theorem coefLoop_spec : ∀ (C : List Coef) (c : ℕ) (s : Sym) (mm : ℤ), s < 64 → Coef.notFinite ∉ C →
    ∃ s' mm', coefLoop c s mm C = .ok (s', mm') ∧ s' < 64 ∧
      (isX s' = true ↔ isX s = true ∧ ∀ i, C[i]? = some .nonzero →
        (indexM (c + i) < 0 ↔ ¬ Even (indexM (c + i)))) ∧
      (isY s' = true ↔ isY s = true ∧ ∀ i, C[i]? = some .nonzero → 0 ≤ indexM (c + i)) ∧
      (isZ s' = true ↔ isZ s = true ∧ ∀ i, C[i]? = some .nonzero → Even (indexL (c + i) + indexM (c + i))) ∧
      (isRefl s' = true ↔ isRefl s = true ∧ ∀ i, C[i]? = some .nonzero → Even (indexL (c + i))) ∧
      mm ≤ mm' ∧ (∀ i, C[i]? = some .nonzero → |indexM (c + i)| ≤ mm') ∧
      (mm' = mm ∨ ∃ i, C[i]? = some .nonzero ∧ mm' = |indexM (c + i)|)
  | [], c, s, mm, hs, _ => by
    refine ⟨s, mm, rfl, hs, ?_⟩
    simp
  | x :: xs, c, s, mm, hs, hnf => by
    have hxs : Coef.notFinite ∉ xs := fun h => hnf (List.mem_cons_of_mem _ h)
    have all : ∀ (P : ℕ → Prop), (∀ i, (x :: xs)[i]? = some Coef.nonzero → P (c + i)) ↔
        (x = .nonzero → P c) ∧ ∀ i, xs[i]? = some .nonzero → P (c + 1 + i) := by
      intro P
      constructor
      · intro h
        refine ⟨fun e => by simpa using h 0 (by simp [e]), fun i hi => ?_⟩
        have := h (i + 1) (by simpa using hi)
        rwa [show c + (i + 1) = c + 1 + i by omega] at this
      · rintro ⟨h0, h1⟩ i hi
        cases i with
        | zero => exact h0 (by simpa using hi)
        | succ i =>
          rw [show c + (i + 1) = c + 1 + i by omega]
          exact h1 i (by simpa using hi)
    cases x with
    | notFinite => exact absurd List.mem_cons_self hnf
    | zero =>
      obtain ⟨s', mm', e, h64, h1, h2, h3, h4, h5, h6, h7⟩ := coefLoop_spec xs (c + 1) s mm hs hxs
      refine ⟨s', mm', e, h64, ?_, ?_, ?_, ?_, h5, ?_, ?_⟩
      · rw [h1, all (fun k => (indexM k < 0 ↔ ¬ Even (indexM k)))]; simp
      · rw [h2, all (fun k => 0 ≤ indexM k)]; simp
      · rw [h3, all (fun k => Even (indexL k + indexM k))]; simp
      · rw [h4, all (fun k => Even (indexL k))]; simp
      · rw [all (fun k => |indexM k| ≤ mm')]; exact ⟨by simp, h6⟩
      · rcases h7 with h | ⟨i, hi, h⟩
        · exact Or.inl h
        · exact Or.inr ⟨i + 1, by simpa using hi, by rw [h]; congr 2; omega⟩
    | nonzero =>
      obtain ⟨s', mm', e, h64, h1, h2, h3, h4, h5, h6, h7⟩ :=
        coefLoop_spec xs (c + 1) (symStep c s) (max mm |indexM c|) (symStep_flags c s hs).1 hxs
      obtain ⟨a1, a2, a3, a4⟩ := allowed_symStep c s hs
      refine ⟨s', mm', e, h64, ?_, ?_, ?_, ?_, le_trans (le_max_left _ _) h5, ?_, ?_⟩
      · rw [h1, a1, all (fun k => (indexM k < 0 ↔ ¬ Even (indexM k)))]; simp [and_assoc]
      · rw [h2, a2, all (fun k => 0 ≤ indexM k)]; simp [and_assoc]
      · rw [h3, a3, all (fun k => Even (indexL k + indexM k))]; simp [and_assoc]
      · rw [h4, a4, all (fun k => Even (indexL k))]; simp [and_assoc]
      · rw [all (fun k => |indexM k| ≤ mm')]; exact ⟨fun _ => le_trans (le_max_right _ _) h5, h6⟩
      · rcases h7 with h | ⟨i, hi, h⟩
        · rcases max_choice mm |indexM c| with h' | h'
          · exact Or.inl (h.trans h')
          · exact Or.inr ⟨0, by simp, by rw [h, h']; simp⟩
        · exact Or.inr ⟨i + 1, by simpa using hi, by rw [h]; congr 2; omega⟩

/-- C28: for every array of (n+1)^2 finite coefficients the scheme exists, its order is n, and its loop visits every
nonzero coefficient. -/
theorem C28_no_loss (n : ℕ) (C : List Coef) (hlen : C.length = (n + 1) * (n + 1)) (hfin : Coef.notFinite ∉ C) :
    ∃ ind, getIndicesFromCoefs C = .ok ind ∧ ind.lmax = n ∧
      ∀ c, C[c]? = some .nonzero → (indexL c, indexM c) ∈ ind.visited := by
  have hsq : Nat.sqrt C.length = n + 1 := by rw [hlen, Nat.sqrt_eq]
  obtain ⟨s', mm', e, h64, h1, h2, h3, h4, h5, h6, h7⟩ := coefLoop_spec C 0 63 0 (by norm_num) hfin
  simp only [zero_add] at h1 h2 h3 h4 h6 h7
  have hl : ((Nat.sqrt C.length : ℕ) : ℤ) - 1 = n := by rw [hsq]; push_cast; ring
  have range : ∀ i, C[i]? = some Coef.nonzero → |indexM i| ≤ indexL i ∧ indexL i ≤ n := by
    intro i hi
    have hlt : i < C.length := by
      by_contra hh
      rw [List.getElem?_eq_none (by omega)] at hi
      cases hi
    have := C26_encode i (n : ℤ) (by omega) (by rw [hlen] at hlt; exact_mod_cast hlt)
    exact ⟨this.1, this.2.1⟩
  have hmm : mm' ≤ n := by
    rcases h7 with h | ⟨i, hi, h⟩
    · omega
    · obtain ⟨a, b⟩ := range i hi; omega
  have hs3 : (isX s' && isY s' && isZ s' && !isRefl s') = false := by
    by_contra hh
    simp only [Bool.not_eq_false, Bool.and_eq_true, Bool.not_eq_true'] at hh
    obtain ⟨⟨⟨hx, hy⟩, hz⟩, hr⟩ := hh
    have hr' : ¬ (isRefl s' = true) := by rw [hr]; simp
    apply hr'
    rw [h4]
    refine ⟨by decide, fun i hi => ?_⟩
    have a := (h1.1 hx).2 i hi
    have b := (h2.1 hy).2 i hi
    have d := (h3.1 hz).2 i hi
    have em : Even (indexM i) := by
      by_contra hh
      have := a.2 hh
      omega
    exact (Int.even_add.1 d).2 em
  obtain ⟨ind, hind⟩ := mkIndices_accepts (lmax := n) h5 hmm (Nat.lt_succ_iff.1 h64) hs3
  have hok : getIndicesFromCoefs C = .ok ind := by
    rw [getIndicesFromCoefs]
    rw [hl, if_neg, e]
    · exact hind
    · push Not
      refine ⟨by omega, ?_⟩
      rw [hlen]; push_cast; ring
  refine ⟨ind, hok, by rw [(mkIndices_ok hind).2.2.2.2], fun c hc => ?_⟩
  rw [mem_visited hind]
  refine ⟨(range c hc).1, (range c hc).2, h6 c hc, ?_, ?_, ?_, ?_⟩
  · exact fun hx => (h1.1 hx).2 c hc
  · exact fun hx => (h2.1 hx).2 c hc
  · exact fun hx => (h3.1 hx).2 c hc
  · exact fun hx => (h4.1 hx).2 c hc

/-- C28: the scheme is as symmetric as the coefficients allow: a pair absent from the loop breaks a reflection that all
nonzero coefficients respect, or exceeds the azimuthal order of all of them. -/
theorem C28_tight (n : ℕ) (C : List Coef) (hlen : C.length = (n + 1) * (n + 1)) (hfin : Coef.notFinite ∉ C)
    {ind : Indices} (h : getIndicesFromCoefs C = .ok ind) (l m : ℤ) (hm : |m| ≤ l) (hl : l ≤ n)
    (hv : (l, m) ∉ ind.visited) :
    (∀ c, C[c]? = some .nonzero → |indexM c| < |m|) ∨
    (¬ (m < 0 ↔ ¬ Even m) ∧ ∀ c, C[c]? = some .nonzero → (indexM c < 0 ↔ ¬ Even (indexM c))) ∨
    (m < 0 ∧ ∀ c, C[c]? = some .nonzero → 0 ≤ indexM c) ∨
    (¬ Even (l + m) ∧ ∀ c, C[c]? = some .nonzero → Even (indexL c + indexM c)) ∨
    (¬ Even l ∧ ∀ c, C[c]? = some .nonzero → Even (indexL c)) := by
  have hsq : Nat.sqrt C.length = n + 1 := by rw [hlen, Nat.sqrt_eq]
  obtain ⟨s', mm', e, h64, h1, h2, h3, h4, h5, h6, h7⟩ := coefLoop_spec C 0 63 0 (by norm_num) hfin
  simp only [zero_add] at h1 h2 h3 h4 h6 h7
  have hl' : ((Nat.sqrt C.length : ℕ) : ℤ) - 1 = n := by rw [hsq]; push_cast; ring
  rw [getIndicesFromCoefs] at h
  rw [hl', if_neg (by push Not; exact ⟨by omega, by rw [hlen]; push_cast; ring⟩), e] at h
  simp only at h
  rw [mem_visited h, Allowed] at hv
  by_cases hmm : |m| ≤ mm'
  · right
    by_contra hc
    apply hv
    refine ⟨hm, hl, hmm, ?_, ?_, ?_, ?_⟩
    · intro hx
      by_contra hh
      exact hc (Or.inl ⟨hh, (h1.1 hx).2⟩)
    · intro hx
      by_contra hh
      exact hc (Or.inr (Or.inl ⟨by omega, (h2.1 hx).2⟩))
    · intro hx
      by_contra hh
      exact hc (Or.inr (Or.inr (Or.inl ⟨hh, (h3.1 hx).2⟩)))
    · intro hx
      by_contra hh
      exact hc (Or.inr (Or.inr (Or.inr ⟨hh, (h4.1 hx).2⟩)))
  · left
    intro c hc
    have := h6 c hc
    omega

/-- C28: arrays of any other length, or with a non-finite element, are rejected. -/
theorem C28_rejects (C : List Coef) (h : (∀ n : ℕ, C.length ≠ (n + 1) * (n + 1)) ∨ Coef.notFinite ∈ C) :
    ∃ e, getIndicesFromCoefs C = .error e := by
  rw [getIndicesFromCoefs]
  by_cases hb : ((Nat.sqrt C.length : ℕ) : ℤ) - 1 < 0 ∨
      (C.length : ℤ) ≠ ((Nat.sqrt C.length : ℕ) - 1 + 1) * ((Nat.sqrt C.length : ℕ) - 1 + 1)
  · rw [if_pos hb]; exact ⟨_, rfl⟩
  rw [if_neg hb]
  push Not at hb
  rcases h with h | h
  · exfalso
    apply h (Nat.sqrt C.length - 1)
    have : Nat.sqrt C.length - 1 + 1 = Nat.sqrt C.length := by omega
    rw [this]
    have := hb.2
    ring_nf at this
    zify; rw [this]; ring
  · have key : ∀ (C : List Coef) (c : ℕ) (s : Sym) (mm : ℤ), Coef.notFinite ∈ C →
        coefLoop c s mm C = .error .notFinite := by
      intro C
      induction C with
      | nil => intro c s mm h; cases h
      | cons x xs ih =>
        intro c s mm h
        cases x with
        | notFinite => rfl
        | zero =>
          rw [coefLoop]
          exact ih _ _ _ (by simpa using h)
        | nonzero =>
          rw [coefLoop]
          exact ih _ _ _ (by simpa using h)
    rw [key C 0 63 0 h]
    exact ⟨_, rfl⟩

/-- A concrete case: only (0,0), (1,1) and (2,0) nonzero. -/
example : ∃ ind, getIndicesFromCoefs
    [.nonzero, .zero, .zero, .nonzero, .zero, .zero, .nonzero, .zero, .zero] = .ok ind ∧
    ind.lmax = 2 ∧ (1, 1) ∈ ind.visited := by
  obtain ⟨ind, h, hl, hv⟩ := C28_no_loss 2
    [.nonzero, .zero, .zero, .nonzero, .zero, .zero, .nonzero, .zero, .zero] rfl (by simp)
  refine ⟨ind, h, hl, ?_⟩
  obtain ⟨-, -, a, b⟩ := C26_decode (l := 1) (m := 1) (lmax := 1) (by norm_num) le_rfl
  have := hv 3 (by simp)
  rw [show (3 : ℕ) = (index 1 1).toNat from rfl, a, b] at this
  exact this

end Verif.SphHarm
