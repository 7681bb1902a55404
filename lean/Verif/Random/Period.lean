import Verif.Random.Linear
import Mathlib.Dynamics.PeriodicPts.Defs
import Mathlib.NumberTheory.LucasPrimality
import Mathlib.Tactic.NormNum.Prime
import Mathlib.Tactic.NormNum.PowMod
import Mathlib.Tactic.NormNum.DivMod

/-! The jump function is `2^64` steps, and the generator has full period: helper lemmas. -/
namespace Verif.Random

theorem ev_last (n p : Nat) (s : XState) :
    ev (n+1) p s = xadd (ev n p s) (if p.testBit n then xoNext^[n] s else xzero) := by
  induction n generalizing p s with
  | zero =>
    simp only [ev, xadd_zero, zero_xadd, Function.iterate_zero, id]
    simp [Nat.testBit_zero]
  | succ n ih =>
    rw [ev, ih, ev, ← xadd_assoc, Nat.testBit_add_one, Function.iterate_succ_apply]

theorem bit_cond (w : W) (b : Nat) (hb : b < 64) :
    (w &&& (1#64 <<< b)) ≠ 0#64 ↔ w.toNat.testBit b = true := by
  constructor
  · intro h
    by_contra hc
    apply h
    ext i hi
    simp only [BitVec.getElem_and, BitVec.getElem_shiftLeft, BitVec.getElem_zero]
    by_cases hib : i = b
    · subst hib
      have : w[i] = false := by rw [BitVec.getElem_eq_testBit_toNat]; simpa using hc
      simp [this]
    · by_cases hl : i < b
      · simp [hl]
      · have : (1#64)[i - b]'(by omega) = false := by
          rw [BitVec.getElem_one]; simp; omega
        simp [this]
  · intro h hc
    have h2 : (w &&& (1#64 <<< b))[b]'hb = false := by rw [hc]; simp
    rw [BitVec.getElem_and, BitVec.getElem_eq_testBit_toNat, h] at h2
    simp at h2

theorem jump_fold (word : W) (n : Nat) (hn : n ≤ 64) (acc s : XState) :
    (List.range n).foldl (jumpStep word) (acc, s) = (xadd acc (ev n word.toNat s), xoNext^[n] s) := by
  induction n with
  | zero => simp [ev]
  | succ n ih =>
    rw [List.range_succ, List.foldl_append, ih (by omega)]
    simp only [List.foldl_cons, List.foldl_nil, jumpStep]
    rw [ev_last, ← Function.iterate_succ_apply' xoNext]
    congr 1
    by_cases hb : word.toNat.testBit n
    · rw [if_pos ((bit_cond word n (by omega)).2 hb), if_pos hb, ← xadd_assoc]; rfl
    · rw [if_neg (fun h => hb ((bit_cond word n (by omega)).1 h)), if_neg hb, xadd_zero]

set_option maxRecDepth 10000 in
theorem jump_poly : mm 64 1 JUMP0.toNat ^^^ mm 64 (pw 7 64) JUMP1.toNat = pw 65 (2^64) := by
  decide +kernel

/-- math_random.cpp:35: "It is equivalent to 2^64 calls to xoroshiro128plus_next()". -/
theorem jump_eq (s : XState) : xoJump s = xoNext^[2^64] s := by
  unfold xoJump
  simp only [jump_fold _ 64 (le_refl _)]
  have h0 : ev 64 JUMP0.toNat s = E (mm 64 1 JUMP0.toNat) s := by
    rw [E_mm _ _ _ (by decide), E_one]
  have h1 : ev 64 JUMP1.toNat (xoNext^[64] s) = E (mm 64 (pw 7 64) JUMP1.toNat) s := by
    rw [E_mm _ _ _ (pw_lt _ _), E_pw _ _ (by decide)]
  change xadd (xadd xzero _) _ = _
  rw [h0, h1, zero_xadd, ← E_xor, jump_poly, E_pw _ _ (by decide)]

/-! ### full period -/

/-- `2^128 - 1` -/
def NN : Nat := 2^128 - 1

set_option maxRecDepth 10000 in
theorem period_poly : pw 128 NN = 1 := by decide +kernel

theorem iterate_NN (s : XState) : xoNext^[NN] s = s := by
  rw [← E_pw 128 NN (by decide), period_poly, E_one]

theorem no_short (k inv : Nat) (hk : k < 2^128)
    (h : mm 128 (pw 128 k ^^^ 1) inv = 1) (s : XState) (hs : xoNext^[k] s = s) : s = xzero := by
  have hlt : pw 128 k ^^^ 1 < 2^128 := Nat.xor_lt_two_pow (pw_lt _ _) (by decide)
  have h1 : E (pw 128 k ^^^ 1) s = xzero := by
    rw [E_xor, E_pw _ _ hk, hs, E_one, xadd_self]
  have h2 := E_mm 128 (pw 128 k ^^^ 1) inv hlt s
  rw [h, E_one, h1] at h2
  have h3 : ev 128 inv xzero = xzero := by
    have := ev_xadd 128 inv xzero xzero
    simp only [xadd_self] at this; exact this
  rw [h2, h3]

set_option maxRecDepth 10000 in
theorem inv_3 : mm 128 (pw 128 (NN / 3) ^^^ 1) 0xff8cefb76846895353ca0f0fe69d9ac1 = 1 := by decide +kernel
set_option maxRecDepth 10000 in
theorem inv_5 : mm 128 (pw 128 (NN / 5) ^^^ 1) 0x44746645e1e994f5f0fe77cc421dfaaa = 1 := by decide +kernel
set_option maxRecDepth 10000 in
theorem inv_17 : mm 128 (pw 128 (NN / 17) ^^^ 1) 0x32c47704c6cdf7931acf2a818a19f62d = 1 := by decide +kernel
set_option maxRecDepth 10000 in
theorem inv_257 : mm 128 (pw 128 (NN / 257) ^^^ 1) 0x96f288cba5870497fd983bf5d14bdbeb = 1 := by decide +kernel
set_option maxRecDepth 10000 in
theorem inv_641 : mm 128 (pw 128 (NN / 641) ^^^ 1) 0xa7e437605ed5e3ae3e409dba24fc1dcd = 1 := by decide +kernel
set_option maxRecDepth 10000 in
theorem inv_65537 : mm 128 (pw 128 (NN / 65537) ^^^ 1) 0xecb57a9ef6f5a6fff4387293b32f3b0c = 1 := by
  decide +kernel
set_option maxRecDepth 10000 in
theorem inv_274177 : mm 128 (pw 128 (NN / 274177) ^^^ 1) 0xe9e260cf9faf324aeb4d0d5da638cf50 = 1 := by
  decide +kernel
set_option maxRecDepth 10000 in
theorem inv_6700417 : mm 128 (pw 128 (NN / 6700417) ^^^ 1) 0x14ca8334099b25f5a6585d516b1fd6f1 = 1 := by
  decide +kernel
set_option maxRecDepth 10000 in
theorem inv_67280421310721 :
    mm 128 (pw 128 (NN / 67280421310721) ^^^ 1) 0x139bd4d8ba1f6134c128219c7d36e79d = 1 := by
  decide +kernel

theorem zmod_pow (p a n r : ℕ) (h : a^n % p = r % p) : ((a : ZMod p))^n = (r : ZMod p) := by
  rw [← Nat.cast_pow]
  exact (ZMod.natCast_eq_natCast_iff' _ _ _).2 h

/-- Modular power by repeated squaring (helper, for the primality certificate below). -/
def powMod (m : Nat) : Nat → Nat → Nat → Nat
  | 0, _, _ => 1 % m
  | f+1, b, n => if n = 0 then 1 % m else
      let h := powMod m f (b * b % m) (n / 2)
      if n % 2 = 1 then h * b % m else h

theorem powMod_eq (m f : Nat) : ∀ b n, n < 2^f → powMod m f b n = b^n % m := by
  induction f with
  | zero => intro b n h; have : n = 0 := by omega
            subst this; simp [powMod]
  | succ f ih =>
    intro b n h
    unfold powMod
    by_cases h0 : n = 0
    · subst h0; simp
    · have hlt : n / 2 < 2^f := by rw [pow_succ] at h; omega
      simp only [h0, if_false, ih _ _ hlt]
      have e1 : (b * b % m)^(n/2) % m = b^(2*(n/2)) % m := by
        rw [← Nat.pow_mod, ← pow_two, ← pow_mul]
      rw [e1]
      split
      · rename_i h1
        have : n = 2*(n/2) + 1 := by omega
        conv_rhs => rw [this, pow_succ]
        rw [Nat.mod_mul_mod]
      · have : n = 2*(n/2) := by omega
        conv_rhs => rw [this]

theorem prime_big : Nat.Prime 67280421310721 := by
  apply lucas_primality 67280421310721 ((3 : ℕ) : ZMod 67280421310721)
  · rw [zmod_pow _ _ _ 1 (by rw [← powMod_eq _ 64 _ _ (by norm_num)]; decide +kernel)]; simp
  · intro q hq hd
    have hf : (67280421310721 - 1 : ℕ) = 2^8 * 5 * 47 * 373 * 2998279 := by norm_num
    rw [hf] at hd
    have h2 : q = 2 ∨ q = 5 ∨ q = 47 ∨ q = 373 ∨ q = 2998279 := by
      rcases (Nat.Prime.dvd_mul hq).1 hd with hd | hd
      · rcases (Nat.Prime.dvd_mul hq).1 hd with hd | hd
        · rcases (Nat.Prime.dvd_mul hq).1 hd with hd | hd
          · rcases (Nat.Prime.dvd_mul hq).1 hd with hd | hd
            · left; exact (Nat.prime_dvd_prime_iff_eq hq Nat.prime_two).1 (hq.dvd_of_dvd_pow hd)
            · right; left; exact (Nat.prime_dvd_prime_iff_eq hq (by norm_num)).1 hd
          · right; right; left; exact (Nat.prime_dvd_prime_iff_eq hq (by norm_num)).1 hd
        · right; right; right; left; exact (Nat.prime_dvd_prime_iff_eq hq (by norm_num)).1 hd
      · right; right; right; right; exact (Nat.prime_dvd_prime_iff_eq hq (by norm_num)).1 hd
    have key : ∀ n, 3^n % 67280421310721 ≠ 1 → ((3 : ℕ) : ZMod 67280421310721)^n ≠ 1 := by
      intro n hn hc
      apply hn
      have : ((3^n : ℕ) : ZMod 67280421310721) = ((1 : ℕ) : ZMod 67280421310721) := by
        rw [Nat.cast_pow, hc]; simp
      exact (ZMod.natCast_eq_natCast_iff' _ _ _).1 this
    rcases h2 with h | h | h | h | h <;> subst h <;> apply key <;>
      (rw [← powMod_eq _ 64 _ _ (by norm_num)]; decide +kernel)

theorem NN_factor : NN = 3 * 5 * 17 * 257 * 641 * 65537 * 274177 * 6700417 * 67280421310721 := by
  decide

theorem prime_dvd_NN (q : ℕ) (hq : q.Prime) (hd : q ∣ NN) :
    q = 3 ∨ q = 5 ∨ q = 17 ∨ q = 257 ∨ q = 641 ∨ q = 65537 ∨ q = 274177 ∨ q = 6700417 ∨
      q = 67280421310721 := by
  rw [NN_factor] at hd
  simp only [Nat.Prime.dvd_mul hq] at hd
  have p3 : Nat.Prime 3 := by norm_num
  have p5 : Nat.Prime 5 := by norm_num
  have p17 : Nat.Prime 17 := by norm_num
  have p257 : Nat.Prime 257 := by norm_num
  have p641 : Nat.Prime 641 := by norm_num
  have p65537 : Nat.Prime 65537 := by norm_num
  have p274177 : Nat.Prime 274177 := by norm_num
  have p6700417 : Nat.Prime 6700417 := by norm_num
  rcases hd with (((((((hd | hd) | hd) | hd) | hd) | hd) | hd) | hd) | hd
  · exact Or.inl ((Nat.prime_dvd_prime_iff_eq hq p3).1 hd)
  · exact Or.inr (Or.inl ((Nat.prime_dvd_prime_iff_eq hq p5).1 hd))
  · exact Or.inr (Or.inr (Or.inl ((Nat.prime_dvd_prime_iff_eq hq p17).1 hd)))
  · exact Or.inr (Or.inr (Or.inr (Or.inl ((Nat.prime_dvd_prime_iff_eq hq p257).1 hd))))
  · exact Or.inr (Or.inr (Or.inr (Or.inr (Or.inl ((Nat.prime_dvd_prime_iff_eq hq p641).1 hd)))))
  · exact Or.inr (Or.inr (Or.inr (Or.inr (Or.inr (Or.inl
      ((Nat.prime_dvd_prime_iff_eq hq p65537).1 hd))))))
  · exact Or.inr (Or.inr (Or.inr (Or.inr (Or.inr (Or.inr (Or.inl
      ((Nat.prime_dvd_prime_iff_eq hq p274177).1 hd)))))))
  · exact Or.inr (Or.inr (Or.inr (Or.inr (Or.inr (Or.inr (Or.inr (Or.inl
      ((Nat.prime_dvd_prime_iff_eq hq p6700417).1 hd))))))))
  · exact Or.inr (Or.inr (Or.inr (Or.inr (Or.inr (Or.inr (Or.inr (Or.inr
      ((Nat.prime_dvd_prime_iff_eq hq prime_big).1 hd))))))))

theorem minimalPeriod_eq (s : XState) (hs : s ≠ xzero) : Function.minimalPeriod xoNext s = NN := by
  have hdvd : Function.minimalPeriod xoNext s ∣ NN :=
    Function.IsPeriodicPt.minimalPeriod_dvd (iterate_NN s)
  by_contra hne
  obtain ⟨c, hc⟩ := hdvd
  have hNpos : 0 < NN := by decide
  have hc1 : c ≠ 1 := by rintro rfl; exact hne (by omega)
  obtain ⟨q, hq, hqc⟩ := Nat.exists_prime_and_dvd hc1
  have hqN : q ∣ NN := hc ▸ Dvd.dvd.mul_left hqc _
  have hper : xoNext^[NN / q] s = s := by
    have : Function.minimalPeriod xoNext s ∣ NN / q := by
      obtain ⟨e, he⟩ := hqc
      refine ⟨e, ?_⟩
      rw [hc, he]
      rw [show Function.minimalPeriod xoNext s * (q * e) = q * (Function.minimalPeriod xoNext s * e) by
        rw [Nat.mul_left_comm]]
      exact Nat.mul_div_cancel_left _ hq.pos
    exact (Function.isPeriodicPt_iff_minimalPeriod_dvd.2 this)
  apply hs
  rcases prime_dvd_NN q hq hqN with h | h | h | h | h | h | h | h | h <;> subst h
  · exact no_short _ _ (by decide) inv_3 s hper
  · exact no_short _ _ (by decide) inv_5 s hper
  · exact no_short _ _ (by decide) inv_17 s hper
  · exact no_short _ _ (by decide) inv_257 s hper
  · exact no_short _ _ (by decide) inv_641 s hper
  · exact no_short _ _ (by decide) inv_65537 s hper
  · exact no_short _ _ (by decide) inv_274177 s hper
  · exact no_short _ _ (by decide) inv_6700417 s hper
  · exact no_short _ _ (by decide) inv_67280421310721 s hper

end Verif.Random
