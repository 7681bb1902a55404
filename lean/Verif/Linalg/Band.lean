import Mathlib.Algebra.BigOperators.Intervals
import Mathlib.Algebra.BigOperators.Group.Finset.Basic
import Mathlib.Algebra.Field.Basic
import Mathlib.Tactic

/-! Model of the band matrix, /repo/src/math_linalg.cpp:126-286 (element access, enumeration, daxpy, dmul, dgemv).
The flattened array is a function of the index; the theorems include that all indices are inside the array. Elements
are those of an arbitrary field (exact arithmetic). -/
namespace Verif.Band

set_option linter.unusedSectionVars false

variable {K : Type*} [Field K]

/-- math_linalg.cpp:146-151: a band matrix; `data` has `n * (2*band+1)` elements. -/
structure BandMatrix (K : Type*) where
  n : ℕ
  band : ℕ
  data : ℕ → K

/-- math_linalg.cpp:149: the constructor throws unless bandwidth < size. -/
def BandMatrix.create (size band : ℕ) (value : K) : Option (BandMatrix K) :=
  if band ≥ size then none else some ⟨size, band, fun _ => value⟩

namespace BandMatrix

def width (M : BandMatrix K) : ℕ := 2 * M.band + 1

/-- Index in the flattened array (`row * (2*band+1) + col+band-row`, unsigned arithmetic). -/
def index (M : BandMatrix K) (row col : ℕ) : ℕ := row * (2 * M.band + 1) + col + M.band - row

/-- math_linalg.cpp:154-160. -/
def at' (M : BandMatrix K) (row col : ℕ) : Option K :=
  if row < M.n ∧ col < M.n then
    if col > row + M.band ∨ row > col + M.band then some 0 else some (M.data (M.index row col))
  else none

/-- math_linalg.cpp:170-175: `M(row,col) = v`. -/
def set (M : BandMatrix K) (row col : ℕ) (v : K) : Option (BandMatrix K) :=
  if row < M.n ∧ col < M.n ∧ col ≤ row + M.band ∧ row ≤ col + M.band then
    some { M with data := Function.update M.data (M.index row col) v }
  else none

/-- math_linalg.cpp:177-181. -/
def size (M : BandMatrix K) : ℕ := M.n * (2 * M.band + 1) - M.band * (M.band + 1)

/-- math_linalg.cpp:192-197 and 204-209: the while loop of elem(). -/
def clip (band row col : ℕ) : ℕ × ℕ :=
  if col ≥ row + band + 1 then clip band (row + 1) (col - (row + band + 1)) else (row, col)
termination_by col

/-- math_linalg.cpp:183-217 (`none`: index out of range). Returns value, row, column. -/
def elem (M : BandMatrix K) (index : ℕ) : Option (K × ℕ × ℕ) :=
  let nRows := M.n
  let width := 2 * M.band + 1
  let total := nRows * width - M.band * (M.band + 1)
  let nclip := M.band ^ 2 + M.band * (M.band + 1) / 2
  if index < nclip then
    let rc := clip M.band 0 index
    some (M.data (rc.1 * width + rc.2 + M.band - rc.1), rc.1, rc.2)
  else if index + nclip < total then
    let row := (index - nclip) / width + M.band
    let col := (index - nclip) % width + row - M.band
    some (M.data (row * width + col + M.band - row), row, col)
  else if index < total then
    let rc := clip M.band 0 (total - 1 - index)
    let row := nRows - 1 - rc.1
    let col := nRows - 1 - rc.2
    some (M.data (row * width + col + M.band - row), row, col)
  else none

/-- math_linalg.cpp:225-226 (and the same in blas_dgemv): first column of a row. -/
def cl (M : BandMatrix K) (r : ℕ) : ℕ := r - M.band
/-- One past the last column of a row. -/
def cr1 (M : BandMatrix K) (r : ℕ) : ℕ := min (M.n - 1) (r + M.band) + 1

/-- math_linalg.cpp:219-231: `m` starts from r*width + cl-r+band and is incremented together with the column. -/
def values (M : BandMatrix K) : List (ℕ × ℕ × K) :=
  (List.range M.n).flatMap fun r =>
    (List.range (M.cr1 r - M.cl r)).map fun k =>
      (r, M.cl r + k, M.data (r * M.width + M.cl r + M.band - r + k))

/-- math_linalg.cpp:233-245. -/
def daxpy (alpha : K) (X Y : BandMatrix K) : Option (BandMatrix K) :=
  if Y.n ≠ X.n ∨ Y.band ≠ X.band then none
  else some { Y with data := fun i => if i < X.n * X.width then Y.data i + alpha * X.data i else Y.data i }

/-- math_linalg.cpp:247-253. -/
def dmul (alpha : K) (Y : BandMatrix K) : BandMatrix K :=
  { Y with data := fun i => if i < Y.n * Y.width then Y.data i * alpha else Y.data i }

/-- math_linalg.cpp:255-286: the vectors are functions on the indices below `n`; the size check is the caller's. -/
def dgemv [DecidableEq K] (trans : Bool) (alpha : K) (M : BandMatrix K) (vec : ℕ → K) (beta : K) (result : ℕ → K) : ℕ → K :=
  let result : ℕ → K := if beta = 0 then fun _ => 0 else fun i => result i * beta
  if trans then
    (List.range M.n).foldl (fun res r =>
      let val := alpha * vec r
      (List.range (M.cr1 r - M.cl r)).foldl (fun res k =>
        Function.update res (M.cl r + k) (res (M.cl r + k) + val * M.data (r * M.width + M.cl r + M.band - r + k))) res) result
  else
    (List.range M.n).foldl (fun res r =>
      (List.range (M.cr1 r - M.cl r)).foldl (fun res k =>
        Function.update res r (res r + alpha * vec (M.cl r + k) * M.data (r * M.width + M.cl r + M.band - r + k))) res) result

end BandMatrix

open BandMatrix

/-! ## Specification -/

/-- The dense matrix: what `at` reports. -/
def dense (M : BandMatrix K) (r c : ℕ) : K := (M.at' r c).getD 0

def InBand (M : BandMatrix K) (r c : ℕ) : Prop := r < M.n ∧ c < M.n ∧ c ≤ r + M.band ∧ r ≤ c + M.band

instance (M : BandMatrix K) (r c : ℕ) : Decidable (InBand M r c) := by unfold InBand; infer_instance

theorem index_eq (M : BandMatrix K) {r c : ℕ} (h : r ≤ c + M.band) :
    M.index r c = r * (2 * M.band + 1) + (c + M.band - r) := by
  rw [index]; omega

/-- C32: every in-band element is stored inside the array. -/
theorem C32_index_bound (M : BandMatrix K) {r c : ℕ} (h : InBand M r c) : M.index r c < M.n * (2 * M.band + 1) := by
  obtain ⟨h1, h2, h3, h4⟩ := h
  rw [index_eq M h4]
  have : (r + 1) * (2 * M.band + 1) ≤ M.n * (2 * M.band + 1) := Nat.mul_le_mul_right _ h1
  have e : (r + 1) * (2 * M.band + 1) = r * (2 * M.band + 1) + (2 * M.band + 1) := by ring
  omega

theorem index_inj (M : BandMatrix K) {r c r' c' : ℕ} (h : InBand M r c) (h' : InBand M r' c')
    (e : M.index r c = M.index r' c') : r = r' ∧ c = c' := by
  obtain ⟨h1, h2, h3, h4⟩ := h
  obtain ⟨h1', h2', h3', h4'⟩ := h'
  rw [index_eq M h4, index_eq M h4'] at e
  have hr : r = r' := by
    have a : (r * (2 * M.band + 1) + (c + M.band - r)) / (2 * M.band + 1) = r := by
      rw [mul_comm, Nat.mul_add_div (by omega), Nat.div_eq_of_lt (by omega), add_zero]
    have b : (r' * (2 * M.band + 1) + (c' + M.band - r')) / (2 * M.band + 1) = r' := by
      rw [mul_comm, Nat.mul_add_div (by omega), Nat.div_eq_of_lt (by omega), add_zero]
    rw [← a, ← b, e]
  subst hr
  exact ⟨rfl, by omega⟩

theorem dense_band (M : BandMatrix K) {r c : ℕ} (h : InBand M r c) : dense M r c = M.data (M.index r c) := by
  obtain ⟨h1, h2, h3, h4⟩ := h
  rw [dense, at', if_pos ⟨h1, h2⟩, if_neg (by omega)]; rfl

theorem dense_off (M : BandMatrix K) {r c : ℕ} (h : ¬ InBand M r c) : dense M r c = 0 := by
  rw [dense, at']
  split
  · rename_i h1
    rw [if_pos]
    · rfl
    · by_contra hc
      apply h
      exact ⟨h1.1, h1.2, by omega, by omega⟩
  · rfl

/-- C32: reading back. After a successful M(r,c)=v, at(r,c) is v and every other element is unchanged; the store succeeds
exactly for in-band elements; at() fails exactly outside of the matrix and is zero outside of the band. -/
theorem C32_store_read (M : BandMatrix K) (r c : ℕ) (v : K) :
    ((M.set r c v).isSome ↔ InBand M r c) ∧
    (∀ M', M.set r c v = some M' → M'.n = M.n ∧ M'.band = M.band ∧ M'.at' r c = some v ∧
      ∀ r' c', (r', c') ≠ (r, c) → M'.at' r' c' = M.at' r' c') ∧
    ((M.at' r c).isSome ↔ r < M.n ∧ c < M.n) ∧
    (r < M.n → c < M.n → ¬ InBand M r c → M.at' r c = some 0) := by
  refine ⟨?_, ?_, ?_, ?_⟩
  · rw [BandMatrix.set]
    split
    · rename_i h; exact ⟨fun _ => h, fun _ => rfl⟩
    · rename_i h; exact ⟨fun h' => absurd h' (by simp), fun h' => absurd h' h⟩
  · intro M' h
    rw [BandMatrix.set] at h
    split at h
    · rename_i hb
      cases h
      refine ⟨rfl, rfl, ?_, ?_⟩
      · obtain ⟨h1, h2, h3, h4⟩ := hb
        rw [at', if_pos ⟨h1, h2⟩, if_neg (by simp only; omega)]
        simp [index]
      · intro r' c' hne
        rw [at', at']
        by_cases hr : r' < M.n ∧ c' < M.n
        · rw [if_pos hr, if_pos hr]
          by_cases ho : c' > r' + M.band ∨ r' > c' + M.band
          · rw [if_pos ho, if_pos ho]
          · rw [if_neg ho, if_neg ho]
            simp only [Option.some.injEq]
            rw [show BandMatrix.index { n := M.n, band := M.band, data := Function.update M.data (M.index r c) v : BandMatrix K } r' c'
              = M.index r' c' from rfl]
            apply Function.update_of_ne
            intro he
            have := index_inj M (r := r') (c := c') ⟨hr.1, hr.2, by omega, by omega⟩ hb he
            exact hne (by rw [this.1, this.2])
        · rw [if_neg hr, if_neg hr]
    · cases h
  · rw [at']
    split
    · rename_i h
      refine ⟨fun _ => h, fun _ => ?_⟩
      split <;> rfl
    · rename_i h; exact ⟨fun h' => absurd h' (by simp), fun h' => absurd h' h⟩
  · intro h1 h2 h3
    rw [at', if_pos ⟨h1, h2⟩, if_pos]
    by_contra hc
    exact h3 ⟨h1, h2, by omega, by omega⟩

theorem row_index (M : BandMatrix K) {r k : ℕ} (hr : r < M.n) (hk : k < M.cr1 r - M.cl r) :
    InBand M r (M.cl r + k) ∧ r * M.width + M.cl r + M.band - r + k = M.index r (M.cl r + k) := by
  simp only [cl, cr1] at *
  constructor
  · exact ⟨hr, by omega, by omega, by omega⟩
  · rw [index, width]; omega

/-- C32: values() lists each in-band element exactly once, with its row, column and value. -/
theorem C32_values (M : BandMatrix K) : M.values.Nodup ∧
    ((M.values.map fun t => (t.1, t.2.1)).Nodup) ∧
    ∀ r c v, (r, c, v) ∈ M.values ↔ InBand M r c ∧ M.at' r c = some v := by
  have h2 : (M.values.map fun t => (t.1, t.2.1)).Nodup := by
    rw [values, List.map_flatMap, List.nodup_flatMap]
    constructor
    · intro r _
      rw [List.map_map]
      apply List.Nodup.map _ List.nodup_range
      intro a b hab
      simp only [Function.comp, Prod.mk.injEq, true_and] at hab
      omega
    · apply List.nodup_range.pairwise_of_forall_ne
      · intro a _ b _ hab
        intro x hx hx'
        simp only [List.map_map, List.mem_map, List.mem_range, Function.comp] at hx hx'
        obtain ⟨k, _, rfl⟩ := hx
        obtain ⟨k', _, e⟩ := hx'
        exact hab (by injection e with e1 e2; exact e1.symm)
  refine ⟨List.Nodup.of_map _ h2, h2, ?_⟩
  intro r c v
  simp only [values, List.mem_flatMap, List.mem_range, List.mem_map, Prod.mk.injEq]
  constructor
  · rintro ⟨r, hr, k, hk, rfl, rfl, rfl⟩
    obtain ⟨h1, h2⟩ := row_index M hr hk
    refine ⟨h1, ?_⟩
    obtain ⟨a, b, c, d⟩ := h1
    rw [at', if_pos ⟨a, b⟩, if_neg (by omega), h2]
  · rintro ⟨⟨h1, h2, h3, h4⟩, hv⟩
    refine ⟨r, h1, c - M.cl r, ?_, rfl, ?_, ?_⟩
    · simp only [cl, cr1]; omega
    · simp only [cl]; omega
    · rw [at', if_pos ⟨h1, h2⟩, if_neg (by omega)] at hv
      cases hv
      congr 1
      simp only [cl, width, index]; omega

/-! ### Enumeration by elem() -/

/-- Number of elements in row `r`. -/
def rowLen (M : BandMatrix K) (r : ℕ) : ℕ := M.cr1 r - M.cl r

/-- Number of elements before row `r`. -/
def off (M : BandMatrix K) (r : ℕ) : ℕ := ∑ i ∈ Finset.range r, rowLen M i

theorem off_succ (M : BandMatrix K) (r : ℕ) : off M (r + 1) = off M r + rowLen M r := Finset.sum_range_succ _ _

theorem range_off {α : Type*} (M : BandMatrix K) (f : ℕ → α) (n : ℕ) : (List.range (off M n)).map f =
    (List.range n).flatMap fun r => (List.range (rowLen M r)).map fun k => f (off M r + k) := by
  induction n with
  | zero => rfl
  | succ n ih =>
    rw [off_succ, List.range_add, List.map_append, ih, List.range_succ, List.flatMap_append]
    simp

theorem values_len (M : BandMatrix K) : M.values.length = off M M.n := by
  have := congrArg List.length (range_off M (fun i => i) M.n)
  simp only [List.length_map, List.length_range, List.length_flatMap] at this
  rw [values, List.length_flatMap]
  simp only [List.length_map, List.length_range]
  exact this.symm

theorem tri_sum (b m : ℕ) (h : b ≤ m) : 2 * ∑ r ∈ Finset.range m, (b - r) = b * (b + 1) := by
  induction m generalizing b with
  | zero =>
    have : b = 0 := by omega
    subst this; rfl
  | succ m ih =>
    rw [Finset.sum_range_succ']
    cases b with
    | zero => simp
    | succ b =>
      have := ih b (by omega)
      simp only [Nat.add_sub_add_right, Nat.sub_zero]
      rw [mul_add, this]; ring

/-- C32: size() is the number of in-band elements (the length of values()). -/
theorem C32_size (M : BandMatrix K) (h : M.band < M.n) : M.size = M.values.length := by
  rw [values_len, size]
  have key : off M M.n + (∑ r ∈ Finset.range M.n, (M.band - r) + ∑ r ∈ Finset.range M.n, (r + M.band - (M.n - 1))) =
      M.n * (2 * M.band + 1) := by
    rw [off, ← Finset.sum_add_distrib, ← Finset.sum_add_distrib]
    rw [Finset.sum_congr rfl (g := fun _ => 2 * M.band + 1)]
    · simp
    · intro r hr
      rw [Finset.mem_range] at hr
      simp only [rowLen, cr1, cl]
      omega
  have e2 : ∑ r ∈ Finset.range M.n, (r + M.band - (M.n - 1)) = ∑ r ∈ Finset.range M.n, (M.band - r) := by
    rw [← Finset.sum_range_reflect (fun r => M.band - r)]
    apply Finset.sum_congr rfl
    intro r hr
    rw [Finset.mem_range] at hr
    omega
  have e1 := tri_sum M.band M.n (by omega)
  rw [e2] at key
  omega

/-- Sum of the lengths of the first `s` rows with a clipped edge. -/
def T (b s : ℕ) : ℕ := ∑ i ∈ Finset.range s, (i + b + 1)

theorem T_succ (b s : ℕ) : T b (s + 1) = T b s + (s + b + 1) := Finset.sum_range_succ _ _

theorem T_two (b s : ℕ) : 2 * T b s + s = s * s + 2 * s * (b + 1) := by
  induction s with
  | zero => simp [T]
  | succ s ih => rw [T_succ]; nlinarith

theorem T_mono (b : ℕ) {s t : ℕ} (h : s ≤ t) : T b s ≤ T b t := by
  induction h with
  | refl => exact le_refl _
  | step _ ih => rw [T_succ]; omega

theorem T_nclip (b : ℕ) : T b b = b ^ 2 + b * (b + 1) / 2 := by
  have := T_two b b
  obtain ⟨k, hk⟩ := Nat.even_mul_succ_self b
  rw [hk, ← two_mul, Nat.mul_div_cancel_left k (by omega)]
  have e : b * (b + 1) = b * b + b := by ring
  rw [pow_two]
  nlinarith

theorem clip_T (b r k s : ℕ) (hs : s ≤ r) (hk : k < r + b + 1) :
    clip b s (T b r - T b s + k) = (r, k) := by
  obtain ⟨d, rfl⟩ : ∃ d, r = s + d := ⟨r - s, by omega⟩
  induction d generalizing s with
  | zero => rw [add_zero, Nat.sub_self, zero_add, clip, if_neg (by omega)]
  | succ d ih =>
    have h1 := T_succ b s
    have h2 : T b (s + 1) ≤ T b (s + (d + 1)) := T_mono b (by omega)
    rw [clip, if_pos (by omega)]
    have := ih (s + 1) (by omega) (by omega)
    rw [show s + 1 + d = s + (d + 1) by omega] at this
    rw [← this]
    congr 1
    omega

theorem off_left (M : BandMatrix K) (h : 2 * M.band ≤ M.n) (r : ℕ) (hr : r ≤ M.band) : off M r = T M.band r := by
  induction r with
  | zero => rfl
  | succ r ih =>
    rw [off_succ, T_succ, ih (by omega), rowLen, cr1, cl]
    omega

theorem off_mid (M : BandMatrix K) (h : 2 * M.band ≤ M.n) (d : ℕ) (hd : d + 2 * M.band ≤ M.n) :
    off M (M.band + d) = T M.band M.band + d * (2 * M.band + 1) := by
  induction d with
  | zero => rw [add_zero, off_left M h _ (le_refl _)]; simp
  | succ d ih =>
    rw [← add_assoc, off_succ, ih (by omega), rowLen, cr1, cl, show (d + 1) * (2 * M.band + 1) = d * (2 * M.band + 1) + (2 * M.band + 1) by ring]
    omega

theorem off_right (M : BandMatrix K) (h : 2 * M.band ≤ M.n) (s : ℕ) (hs : s ≤ M.band) :
    off M (M.n - s) + T M.band s = off M M.n := by
  induction s with
  | zero => simp [T]
  | succ s ih =>
    have := ih (by omega)
    rw [← this, T_succ]
    by_cases hn : M.n = 0
    · omega
    rw [show M.n - s = M.n - (s + 1) + 1 by omega, off_succ, rowLen, cr1, cl]
    omega

theorem elem_row (M : BandMatrix K) (hb : M.band < M.n) (h : 2 * M.band ≤ M.n) {r k : ℕ} (hr : r < M.n)
    (hk : k < rowLen M r) :
    M.elem (off M r + k) = some (M.data (r * M.width + M.cl r + M.band - r + k), r, M.cl r + k) := by
  have htot : M.n * (2 * M.band + 1) - M.band * (M.band + 1) = off M M.n := by
    rw [← values_len, ← C32_size M hb]; rfl
  have hdat : ∀ c, c = M.cl r + k →
      M.data (r * (2 * M.band + 1) + c + M.band - r) = M.data (r * M.width + M.cl r + M.band - r + k) := by
    rintro _ rfl
    congr 1
    simp only [width, cl]; omega
  have hhalf : off M (M.band + (M.n - 2 * M.band)) = T M.band M.band + (M.n - 2 * M.band) * (2 * M.band + 1) :=
    off_mid M h _ (by omega)
  have hend := off_right M h M.band (le_refl _)
  rw [show M.band + (M.n - 2 * M.band) = M.n - M.band by omega] at hhalf
  rw [elem]
  simp only
  rw [htot, ← T_nclip]
  by_cases c1 : r < M.band
  · have e := off_left M h r (by omega)
    have hk' : k < r + M.band + 1 := by
      simp only [rowLen, cr1, cl] at hk; omega
    have hlt : off M r + k < T M.band M.band := by
      have := T_succ M.band r
      have := T_mono M.band (show r + 1 ≤ M.band by omega)
      omega
    rw [if_pos hlt, e]
    have hc := clip_T M.band r k 0 (by omega) hk'
    rw [show T M.band 0 = 0 from rfl, Nat.sub_zero] at hc
    rw [hc]
    have hcl : M.cl r = 0 := by simp only [cl]; omega
    rw [hdat k (by omega), hcl, zero_add]
  · by_cases c2 : r < M.n - M.band
    · obtain ⟨d, rfl⟩ : ∃ d, r = M.band + d := ⟨r - M.band, by omega⟩
      have e := off_mid M h d (by omega)
      have hk' : k < 2 * M.band + 1 := by simp only [rowLen, cr1, cl] at hk; omega
      have hmul : (d + 1) * (2 * M.band + 1) ≤ (M.n - 2 * M.band) * (2 * M.band + 1) :=
        Nat.mul_le_mul_right _ (by omega)
      rw [Nat.succ_mul] at hmul
      rw [if_neg (by omega), if_pos (by omega), e]
      rw [show T M.band M.band + d * (2 * M.band + 1) + k - T M.band M.band = (2 * M.band + 1) * d + k by
        rw [mul_comm d]; omega]
      rw [Nat.mul_add_div (by omega), Nat.mul_add_mod, Nat.div_eq_of_lt hk', Nat.mod_eq_of_lt hk', add_zero]
      rw [show d + M.band = M.band + d by omega]
      rw [hdat (k + (M.band + d) - M.band) (by simp only [cl]; omega)]
      have : k + (M.band + d) - M.band = M.cl (M.band + d) + k := by simp only [cl]; omega
      rw [this]
    · obtain ⟨s, hs, rfl⟩ : ∃ s, s < M.band ∧ r = M.n - (s + 1) := ⟨M.n - 1 - r, by omega, by omega⟩
      have e := off_right M h (s + 1) (by omega)
      rw [T_succ] at e
      have hrow : rowLen M (M.n - (s + 1)) = s + M.band + 1 := by simp only [rowLen, cr1, cl]; omega
      rw [hrow] at hk
      have hT := T_mono M.band (show s + 1 ≤ M.band by omega)
      rw [T_succ] at hT
      have hge : T M.band M.band ≤ off M (M.n - (s + 1)) + k := by omega
      rw [if_neg (by omega), if_neg (by omega), if_pos (by omega)]
      have hc := clip_T M.band s (s + M.band - k) 0 (by omega) (by omega)
      rw [show T M.band 0 = 0 from rfl, Nat.sub_zero] at hc
      rw [show off M M.n - 1 - (off M (M.n - (s + 1)) + k) = T M.band s + (s + M.band - k) by omega, hc]
      simp only
      rw [show M.n - 1 - s = M.n - (s + 1) by omega]
      have hcol : M.n - 1 - (s + M.band - k) = M.cl (M.n - (s + 1)) + k := by simp only [cl]; omega
      rw [hdat _ hcol, hcol]

/-- C32: elem(i), 0 ≤ i < size(), enumerates the same elements as values() in the same order, and fails for larger
indices, if the matrix has at least 2*band rows. -/
theorem C32_elem_partial (M : BandMatrix K) (hb : M.band < M.n) (h : 2 * M.band ≤ M.n) :
    (List.range M.size).map M.elem = M.values.map (fun t => some (t.2.2, t.1, t.2.1)) ∧
    ∀ i, M.size ≤ i → M.elem i = none := by
  have hs : M.size = off M M.n := by rw [C32_size M hb, values_len]
  constructor
  · rw [hs, range_off, values, List.map_flatMap]
    apply List.flatMap_congr
    intro r hr
    rw [List.map_map]
    apply List.map_congr_left
    intro k hk
    rw [List.mem_range] at hr hk
    rw [elem_row M hb h hr hk]; rfl
  · intro i hi
    have hhalf : off M (M.band + (M.n - 2 * M.band)) = T M.band M.band + (M.n - 2 * M.band) * (2 * M.band + 1) :=
      off_mid M h _ (by omega)
    have hend := off_right M h M.band (le_refl _)
    rw [show M.band + (M.n - 2 * M.band) = M.n - M.band by omega] at hhalf
    rw [elem]
    simp only
    rw [show M.n * (2 * M.band + 1) - M.band * (M.band + 1) = M.size from rfl, ← T_nclip]
    rw [if_neg (by omega), if_neg (by omega), if_neg (by omega)]

/-- Refutation of the unrestricted claim: a 3x3 matrix with bandwidth 2 (allowed by the constructor) has 9 elements, but
elem(6) reports the element in row 1, column 3, which is outside of the matrix. -/
theorem C32_refuted_small (v : K) : ∃ M : BandMatrix K, BandMatrix.create 3 2 v = some M ∧ M.size = 9 ∧
    ∃ w, M.elem 6 = some (w, 1, 3) ∧ ¬ InBand M 1 3 := by
  refine ⟨⟨3, 2, fun _ => v⟩, rfl, rfl, v, ?_, ?_⟩
  · rw [elem]
    simp only
    have : clip 2 0 6 = (1, 3) := by
      rw [clip, if_pos (by omega), clip, if_neg (by omega)]
    simp [this]
  · unfold InBand; simp

/-! ## Linear operations -/

/-- C33: blas_daxpy adds alpha times the other matrix element by element, and rejects other sizes. -/
theorem C33_daxpy (alpha : K) (X Y : BandMatrix K) :
    (X.n = Y.n ∧ X.band = Y.band ↔ (daxpy alpha X Y).isSome) ∧
    ∀ Z, daxpy alpha X Y = some Z → Z.n = Y.n ∧ Z.band = Y.band ∧
      ∀ r c, dense Z r c = dense Y r c + alpha * dense X r c := by
  constructor
  · rw [daxpy]
    split
    · rename_i h; constructor
      · intro h'; omega
      · intro h'; cases h'
    · rename_i h; constructor
      · intro _; rfl
      · intro _; constructor <;> omega
  · intro Z hZ
    rw [daxpy] at hZ
    split at hZ
    · cases hZ
    · rename_i h
      cases hZ
      refine ⟨rfl, rfl, ?_⟩
      push Not at h
      intro r c
      by_cases hb : InBand Y r c
      · have hx : InBand X r c := by
          obtain ⟨h1, h2, h3, h4⟩ := hb
          exact ⟨by omega, by omega, by omega, by omega⟩
        have hi : Y.index r c = X.index r c := by rw [index, index, h.2]
        rw [dense_band Y hb, dense_band X hx, dense_band { n := Y.n, band := Y.band, data := fun i => if i < X.n * X.width then Y.data i + alpha * X.data i else Y.data i : BandMatrix K } hb]
        have : X.index r c < X.n * X.width := C32_index_bound X hx
        rw [show BandMatrix.index { n := Y.n, band := Y.band, data := fun i => if i < X.n * X.width then Y.data i + alpha * X.data i else Y.data i : BandMatrix K } r c = Y.index r c from rfl]
        simp only
        rw [hi, if_pos this]
      · have hx : ¬ InBand X r c := by
          intro ⟨h1, h2, h3, h4⟩
          exact hb ⟨by omega, by omega, by omega, by omega⟩
        rw [dense_off Y hb, dense_off X hx,
          dense_off { n := Y.n, band := Y.band, data := fun i => if i < X.n * X.width then Y.data i + alpha * X.data i else Y.data i : BandMatrix K } hb]; simp

/-- C33: blas_dmul multiplies every element by alpha. -/
theorem C33_dmul (alpha : K) (Y : BandMatrix K) : (dmul alpha Y).n = Y.n ∧ (dmul alpha Y).band = Y.band ∧
    ∀ r c, dense (dmul alpha Y) r c = alpha * dense Y r c := by
  refine ⟨rfl, rfl, ?_⟩
  intro r c
  by_cases hb : InBand Y r c
  · rw [dense_band Y hb, dense_band _ (show InBand (dmul alpha Y) r c from hb)]
    have : Y.index r c < Y.n * Y.width := C32_index_bound Y hb
    rw [show (dmul alpha Y).index r c = Y.index r c from rfl, dmul]
    simp only
    rw [if_pos this, mul_comm]
  · rw [dense_off Y hb, dense_off _ (show ¬ InBand (dmul alpha Y) r c from hb)]; simp

theorem fold_row (l : List ℕ) (res : ℕ → K) (r : ℕ) (t : ℕ → K) :
    l.foldl (fun res k => Function.update res r (res r + t k)) res = Function.update res r (res r + (l.map t).sum) := by
  induction l generalizing res with
  | nil => simp
  | cons a l ih =>
    rw [List.foldl_cons, ih]
    simp [add_assoc]

theorem fold_cols (m a : ℕ) (res : ℕ → K) (t : ℕ → K) (j : ℕ) :
    (List.range m).foldl (fun res k => Function.update res (a + k) (res (a + k) + t k)) res j =
      res j + if a ≤ j ∧ j < a + m then t (j - a) else 0 := by
  induction m with
  | zero => simp
  | succ m ih =>
    rw [List.range_succ, List.foldl_append]
    simp only [List.foldl_cons, List.foldl_nil]
    by_cases hj : j = a + m
    · subst hj
      rw [Function.update_self, ih, if_neg (by omega), if_pos (by omega)]
      simp
    · rw [Function.update_of_ne hj, ih]
      congr 1
      by_cases h1 : a ≤ j ∧ j < a + m
      · rw [if_pos h1, if_pos (by omega)]
      · rw [if_neg h1, if_neg (by omega)]

theorem row_sum (M : BandMatrix K) {r : ℕ} (hr : r < M.n) (f : ℕ → K) :
    ((List.range (M.cr1 r - M.cl r)).map fun k => f (M.cl r + k) * M.data (r * M.width + M.cl r + M.band - r + k)).sum =
      ∑ c ∈ Finset.range M.n, f c * dense M r c := by
  have e1 : ∀ (m : ℕ) (g : ℕ → K), ((List.range m).map g).sum = ∑ k ∈ Finset.range m, g k := by
    intro m g
    induction m with
    | zero => rfl
    | succ m ih => rw [List.range_succ, List.map_append, List.sum_append, ih, Finset.sum_range_succ]; simp
  rw [e1]
  have hc1 : M.cr1 r ≤ M.n := by simp only [cr1]; omega
  have hsub : Finset.Ico (M.cl r) (M.cr1 r) ⊆ Finset.range M.n := by
    intro c hc
    rw [Finset.mem_Ico] at hc
    rw [Finset.mem_range]; omega
  rw [← Finset.sum_subset hsub, Finset.sum_Ico_eq_sum_range]
  · apply Finset.sum_congr rfl
    intro k hk
    rw [Finset.mem_range] at hk
    obtain ⟨h1, h2⟩ := row_index M hr hk
    rw [dense_band M h1, h2]
  · intro c hc hn
    rw [dense_off, mul_zero]
    intro ⟨h1, h2, h3, h4⟩
    apply hn
    rw [Finset.mem_Ico, cl, cr1]
    omega

/-- C33: blas_dgemv equals the product with the dense matrix (transposed or not). -/
theorem C33_dgemv [DecidableEq K] (trans : Bool) (alpha : K) (M : BandMatrix K) (vec : ℕ → K) (beta : K) (y : ℕ → K)
    (i : ℕ) (hi : i < M.n) :
    dgemv trans alpha M vec beta y i =
      alpha * (∑ j ∈ Finset.range M.n, (if trans then dense M j i else dense M i j) * vec j) + beta * y i := by
  have hinit : ∀ i, (if beta = 0 then fun _ => (0 : K) else fun i => y i * beta) i = beta * y i := by
    intro i
    by_cases hb : beta = 0
    · rw [if_pos hb, hb, zero_mul]
    · rw [if_neg hb, mul_comm]
  rw [dgemv]
  simp only
  generalize (if beta = 0 then fun _ => (0 : K) else fun i => y i * beta) = y0 at hinit ⊢
  cases trans with
  | true =>
    simp only [if_true]
    have key : ∀ m ≤ M.n, (List.range m).foldl (fun res r =>
      (List.range (M.cr1 r - M.cl r)).foldl (fun res k =>
        Function.update res (M.cl r + k) (res (M.cl r + k) + alpha * vec r * M.data (r * M.width + M.cl r + M.band - r + k))) res) y0 i
        = y0 i + ∑ r ∈ Finset.range m, alpha * vec r * dense M r i := by
      intro m hm
      induction m with
      | zero => simp
      | succ m ih =>
        rw [List.range_succ, List.foldl_append, Finset.sum_range_succ, ← add_assoc, ← ih (by omega)]
        simp only [List.foldl_cons, List.foldl_nil]
        rw [fold_cols _ _ _ (fun k => alpha * vec m * M.data (m * M.width + M.cl m + M.band - m + k))]
        congr 1
        by_cases hb : InBand M m i
        · have hb' := hb
          obtain ⟨h1, h2, h3, h4⟩ := hb'
          rw [if_pos (by simp only [cl, cr1]; omega)]
          obtain ⟨g1, g2⟩ := row_index M (r := m) (k := i - M.cl m) (by omega) (by simp only [cl, cr1]; omega)
          rw [g2, show M.cl m + (i - M.cl m) = i by simp only [cl]; omega, dense_band M hb]
        · rw [dense_off M hb, mul_zero, if_neg]
          intro h
          simp only [cl, cr1] at h
          exact hb ⟨by omega, hi, by omega, by omega⟩
    rw [key M.n (le_refl _), hinit, Finset.mul_sum, add_comm]
    congr 1
    apply Finset.sum_congr rfl
    intro r _
    ring
  | false =>
    simp only [Bool.false_eq_true, if_false]
    have key : ∀ m ≤ M.n, ∀ i, (List.range m).foldl (fun res r =>
      (List.range (M.cr1 r - M.cl r)).foldl (fun res k =>
        Function.update res r (res r + alpha * vec (M.cl r + k) * M.data (r * M.width + M.cl r + M.band - r + k))) res) y0 i
        = y0 i + if i < m then ∑ c ∈ Finset.range M.n, alpha * vec c * dense M i c else 0 := by
      intro m hm
      induction m with
      | zero => simp
      | succ m ih =>
        intro i
        rw [List.range_succ, List.foldl_append]
        simp only [List.foldl_cons, List.foldl_nil]
        rw [fold_row _ _ _ (fun k => alpha * vec (M.cl m + k) * M.data (m * M.width + M.cl m + M.band - m + k))]
        rw [row_sum M (show m < M.n by omega) (fun c => alpha * vec c)]
        by_cases h : i = m
        · subst h
          rw [Function.update_self, ih (by omega), if_neg (by omega), if_pos (by omega), add_zero]
        · rw [Function.update_of_ne h, ih (by omega)]
          congr 1
          by_cases h1 : i < m
          · rw [if_pos h1, if_pos (by omega)]
          · rw [if_neg h1, if_neg (by omega)]
    rw [key M.n (le_refl _), hinit, if_pos hi, Finset.mul_sum, add_comm]
    congr 1
    apply Finset.sum_congr rfl
    intro r _
    ring

/-- A tridiagonal 4x4 matrix meets the hypotheses. -/
example : ∃ M : BandMatrix ℚ, BandMatrix.create 4 1 (2 : ℚ) = some M ∧ M.band < M.n ∧ 2 * M.band ≤ M.n ∧ M.size = 10 ∧
    dense M 1 2 = 2 ∧ dense M 0 2 = 0 := ⟨_, rfl, by decide, by decide, rfl, rfl, rfl⟩

end Verif.Band
