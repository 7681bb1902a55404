import Mathlib.Data.Real.Basic
import Mathlib.Algebra.BigOperators.Fin
import Mathlib.Algebra.BigOperators.Intervals
import Mathlib.Data.Nat.Bitwise
import Mathlib.Data.Fintype.Pi
import Mathlib.Data.List.FinRange
import Mathlib.Tactic.Linarith
import Mathlib.Tactic.Ring

/-! The Genz-Malik rule of multidimensional integration: evaluation points and sums (/repo/src/cubature.cpp:285-620); C86.
Floating-point numbers are modelled as real numbers; memory allocation always succeeds. -/
namespace Verif.Cubature

noncomputable section

open Finset

/-! ## Model -/

/-- An array of `dim` numbers -/
abbrev Vec (d : ℕ) := Fin d → ℝ

variable {d : ℕ}

/-- cubature.cpp:304-336, ls0: the index of the least significant zero bit -/
def ls0 (n : ℕ) : ℕ := if h : n % 2 = 0 then 0 else ls0 (n / 2) + 1
termination_by n
decreasing_by omega

/-- cubature.cpp:354-367: the loop over 2^dim points in the order of Gray code; `signs` is the bit mask, `p` the current point. `fuel` is the limit on the number of iterations
(none if it is exhausted). The unsigned 32-bit numbers do not overflow because dim<32. -/
def grayLoop (c r : Vec d) : ℕ → ℕ → ℕ → Vec d → List (Vec d) → Option (List (Vec d))
  | 0, _, _, _, _ => none
  | fuel + 1, i, signs, p, out =>
    let out := out ++ [p]
    if h : ls0 i < d then
      let k : Fin d := ⟨ls0 i, h⟩
      let mask := 1 <<< ls0 i
      let signs := signs ^^^ mask
      grayLoop c r fuel (i + 1) signs (Function.update p k (if signs &&& mask ≠ 0 then c k - r k else c k + r k)) out
    else some out

/-- cubature.cpp:343-368, evalR_Rfs -/
def evalR_Rfs (c r : Vec d) : List (Vec d) := (grayLoop c r (2 ^ d) 0 0 (fun i => c i + r i) []).getD []

/-- cubature.cpp:377-387: the inner loop over j -/
def evalRR0_inner (c r : Vec d) (i : Fin d) (st : Vec d × List (Vec d)) (j : Fin d) : Vec d × List (Vec d) :=
  let p1 := Function.update st.1 j (c j - r j)
  let p2 := Function.update p1 i (c i + r i)
  let p3 := Function.update p2 j (c j + r j)
  let p4 := Function.update p3 i (c i - r i)
  (Function.update p4 j (c j), st.2 ++ [p1, p2, p3, p4])

/-- cubature.cpp:374-389: the outer loop over i. The code ends it at dim-2; the remaining value i=dim-1 has an empty inner loop and does not change anything in the end. -/
def evalRR0_outer (c r : Vec d) (st : Vec d × List (Vec d)) (i : Fin d) : Vec d × List (Vec d) :=
  let st1 := ((List.finRange d).filter (i < ·)).foldl (evalRR0_inner c r i) (Function.update st.1 i (c i - r i), st.2)
  (Function.update st1.1 i (c i), st1.2)

/-- cubature.cpp:370-390, evalRR0_0fs; the result is the array p and the points -/
def evalRR0_0fs (c r : Vec d) (p : Vec d) : Vec d × List (Vec d) := (List.finRange d).foldl (evalRR0_outer c r) (p, [])

/-- cubature.cpp:399-409: the loop over i -/
def evalR0_step (c r1 r2 : Vec d) (st : Vec d × List (Vec d)) (i : Fin d) : Vec d × List (Vec d) :=
  let p1 := Function.update st.1 i (c i - r1 i)
  let p2 := Function.update p1 i (c i + r1 i)
  let p3 := Function.update p2 i (c i - r2 i)
  let p4 := Function.update p3 i (c i + r2 i)
  (Function.update p4 i (c i), st.2 ++ [p1, p2, p3, p4])

/-- cubature.cpp:392-410, evalR0_0fs4d -/
def evalR0_0fs4d (c r1 r2 : Vec d) (p : Vec d) : Vec d × List (Vec d) := (List.finRange d).foldl (evalR0_step c r1 r2) (p, [p])

/-- The constants of the rule: lambda2, lambda4, lambda5 -/
structure Lambdas where
  l2 : ℝ
  l4 : ℝ
  l5 : ℝ

/-- cubature.cpp:459-461: the numbers in the code, which approximate sqrt(9/70), sqrt(9/10), sqrt(9/19) -/
def codeLambdas : Lambdas := ⟨0.3585685828003180919906451539079374954541, 0.9486832980505137995996680633298155601160, 0.6882472016116852977216287342936235251269⟩

/-- cubature.cpp:475-503: the points for one region -/
def gmPoints (L : Lambdas) (c h : Vec d) : List (Vec d) :=
  let a := evalR0_0fs4d c (fun i => h i * L.l2) (fun i => h i * L.l4) c
  let b := evalRR0_0fs c (fun i => h i * L.l4) a.1
  a.2 ++ b.2 ++ evalR_Rfs c (fun i => h i * L.l5)

/-- cubature.cpp:416-419 and 592-597: the number of points -/
def numRR0 (d : ℕ) : ℕ := 2 * d * (d - 1)
def numRR (d : ℕ) : ℕ := 1 <<< d
def gmNum (d : ℕ) : ℕ := 1 + 2 * (2 * d) + numRR0 d + numRR d

/-- cubature.cpp:519-549: the sums over the values at points; `v` is the array of values of one component for one region (VALS) -/
structure Sums where
  val0 : ℝ
  sum2 : ℝ
  sum3 : ℝ
  sum4 : ℝ
  sum5 : ℝ

def gmSums (d : ℕ) (v : ℕ → ℝ) : Sums where
  val0 := v 0
  sum2 := ∑ k ∈ range d, (v (1 + 4 * k) + v (1 + 4 * k + 1))
  sum3 := ∑ k ∈ range d, (v (1 + 4 * k + 2) + v (1 + 4 * k + 3))
  sum4 := ∑ k ∈ range (numRR0 d), v (1 + 4 * d + k)
  sum5 := ∑ k ∈ range (numRR d), v (1 + 4 * d + numRR0 d + k)

/-- cubature.cpp:466, 539-540: the increment of `diff` for the dimension k -/
def gmDiff (L : Lambdas) (v : ℕ → ℝ) (k : ℕ) : ℝ :=
  |v (1 + 4 * k) + v (1 + 4 * k + 1) - 2 * v 0 - L.l2 * L.l2 / (L.l4 * L.l4) * (v (1 + 4 * k + 2) + v (1 + 4 * k + 3) - 2 * v 0)|

/-- cubature.cpp:462-463, 600-603, 552: `weight1 * val0 + weight2 * sum2 + weight3 * sum3 + weight4 * sum4 + weight5 * sum5`; to_int(dim) is signed -/
def gm7 (d : ℕ) (s : Sums) : ℝ :=
  (12824 - 9120 * (d : ℤ) + 400 * (d : ℤ) ^ 2 : ℤ) / 19683 * s.val0 + 980 / 6561 * s.sum2 + (1820 - 400 * (d : ℤ) : ℤ) / 19683 * s.sum3 + 200 / 19683 * s.sum4 +
    6859 / 19683 / ((1 <<< d : ℕ) : ℝ) * s.sum5

/-- cubature.cpp:464-465, 604-606, 553: `weightE1 * val0 + weightE2 * sum2 + weightE3 * sum3 + weightE4 * sum4` -/
def gm5 (d : ℕ) (s : Sums) : ℝ :=
  (729 - 950 * (d : ℤ) + 50 * (d : ℤ) ^ 2 : ℤ) / 729 * s.val0 + 245 / 486 * s.sum2 + (265 - 100 * (d : ℤ) : ℤ) / 1458 * s.sum3 + 25 / 729 * s.sum4

/-! ## The points -/

theorem update_back (c : Vec d) (i : Fin d) (x : ℝ) : Function.update (Function.update c i x) i (c i) = c := by
  rw [Function.update_idem, Function.update_eq_self]

/-- The four points on the axis i -/
def axis4 (c r1 r2 : Vec d) (i : Fin d) : List (Vec d) :=
  [Function.update c i (c i - r1 i), Function.update c i (c i + r1 i), Function.update c i (c i - r2 i), Function.update c i (c i + r2 i)]

theorem evalR0_eq (c r1 r2 : Vec d) : evalR0_0fs4d c r1 r2 c = (c, c :: (List.finRange d).flatMap (axis4 c r1 r2)) := by
  have : ∀ (l : List (Fin d)) (out : List (Vec d)), l.foldl (evalR0_step c r1 r2) (c, out) = (c, out ++ l.flatMap (axis4 c r1 r2)) := by
    intro l
    induction l with
    | nil => intro out; simp
    | cons i l ih =>
      intro out
      have e : evalR0_step c r1 r2 (c, out) i = (c, out ++ axis4 c r1 r2 i) := by
        simp [evalR0_step, axis4]
      rw [List.foldl_cons, e, ih]
      simp
  rw [evalR0_0fs4d, this]
  rfl

/-- The four points in the plane (i,j) -/
def plane4 (c r : Vec d) (i j : Fin d) : List (Vec d) :=
  [Function.update (Function.update c i (c i - r i)) j (c j - r j), Function.update (Function.update c i (c i + r i)) j (c j - r j),
   Function.update (Function.update c i (c i + r i)) j (c j + r j), Function.update (Function.update c i (c i - r i)) j (c j + r j)]

theorem evalRR0_inner_eq (c r : Vec d) (i : Fin d) (l : List (Fin d)) (hl : ∀ j ∈ l, i ≠ j) (out : List (Vec d)) :
    l.foldl (evalRR0_inner c r i) (Function.update c i (c i - r i), out) = (Function.update c i (c i - r i), out ++ l.flatMap (plane4 c r i)) := by
  induction l generalizing out with
  | nil => simp
  | cons j l ih =>
    have hij : i ≠ j := hl j (by simp)
    have e : evalRR0_inner c r i (Function.update c i (c i - r i), out) j = (Function.update c i (c i - r i), out ++ plane4 c r i j) := by
      unfold evalRR0_inner plane4
      dsimp only
      have e1 : ∀ (x y z : ℝ), Function.update (Function.update (Function.update c i x) j y) i z = Function.update (Function.update c i z) j y := by
        intro x y z
        rw [Function.update_comm hij, Function.update_idem]
        rw [Function.update_comm hij.symm, Function.update_comm hij]
        
      simp only [e1, Function.update_idem]
      congr 1
      rw [Function.update_comm hij, Function.update_eq_self]
    rw [List.foldl_cons, e, ih (fun j hj => hl j (by simp [hj]))]
    simp

theorem evalRR0_eq (c r : Vec d) : evalRR0_0fs c r c = (c, (List.finRange d).flatMap fun i => ((List.finRange d).filter (i < ·)).flatMap (plane4 c r i)) := by
  have : ∀ (l : List (Fin d)) (out : List (Vec d)), l.foldl (evalRR0_outer c r) (c, out) =
      (c, out ++ l.flatMap fun i => ((List.finRange d).filter (i < ·)).flatMap (plane4 c r i)) := by
    intro l
    induction l with
    | nil => intro out; simp
    | cons i l ih =>
      intro out
      have e : evalRR0_outer c r (c, out) i = (c, out ++ ((List.finRange d).filter (i < ·)).flatMap (plane4 c r i)) := by
        unfold evalRR0_outer
        dsimp only
        rw [evalRR0_inner_eq c r i _ (by
          intro j hj
          rw [List.mem_filter] at hj
          exact (by simpa using hj.2 : i < j).ne)]
        dsimp only
        rw [update_back]
      rw [List.foldl_cons, e, ih]
      simp
  rw [evalRR0_0fs, this]
  rfl

/-! ## Gray code -/

/-- The Gray code of a number -/
def gray (i : ℕ) : ℕ := i ^^^ (i >>> 1)

theorem gray_testBit (i k : ℕ) : (gray i).testBit k = (i.testBit k ^^ i.testBit (k + 1)) := by
  rw [gray, Nat.testBit_xor, Nat.testBit_shiftRight, add_comm]

theorem succ_testBit (i k : ℕ) : (i + 1).testBit k = if k ≤ ls0 i then !i.testBit k else i.testBit k := by
  induction k generalizing i with
  | zero =>
    simp only [Nat.zero_le, if_true, Nat.testBit_zero]
    rcases Nat.mod_two_eq_zero_or_one i with h | h <;> simp [h, Nat.add_mod]
  | succ k ih =>
    rw [Nat.testBit_succ, Nat.testBit_succ]
    rw [ls0]
    split_ifs with h1 h2 h2
    · omega
    · rw [show (i + 1) / 2 = i / 2 by omega]
    · rw [show (i + 1) / 2 = i / 2 + 1 by omega, ih, if_pos (by omega)]
    · rw [show (i + 1) / 2 = i / 2 + 1 by omega, ih, if_neg (by omega)]

theorem gray_succ (i : ℕ) : gray (i + 1) = gray i ^^^ (1 <<< ls0 i) := by
  refine Nat.eq_of_testBit_eq fun k => ?_
  rw [gray_testBit, Nat.testBit_xor, gray_testBit, succ_testBit, succ_testBit, Nat.one_shiftLeft, Nat.testBit_two_pow]
  rcases lt_trichotomy k (ls0 i) with h | h | h
  · rw [if_pos h.le, if_pos (by omega), decide_eq_false (by omega)]
    cases i.testBit k <;> cases i.testBit (k + 1) <;> rfl
  · rw [if_pos h.le, if_neg (by omega), decide_eq_true h.symm]
    cases i.testBit k <;> cases i.testBit (k + 1) <;> rfl
  · rw [if_neg (by omega), if_neg (by omega), decide_eq_false (by omega)]
    cases i.testBit k <;> cases i.testBit (k + 1) <;> rfl

/-- The point with given signs -/
def signPoint (c r : Vec d) (s : Fin d → Bool) : Vec d := fun k => if s k then c k - r k else c k + r k

/-- The signs of the i-th point -/
def graySigns (d i : ℕ) : Fin d → Bool := fun k => (gray i).testBit k

theorem ls0_lt (d i : ℕ) (hi : i < 2 ^ d) : ls0 i < d ↔ i + 1 < 2 ^ d := by
  constructor
  · intro h
    by_contra hc
    have e : i + 1 = 2 ^ d := by omega
    have := succ_testBit i d
    rw [e, Nat.testBit_two_pow_self, if_neg (by omega), Nat.testBit_lt_two_pow hi] at this
    cases this
  · intro h
    by_contra hc
    have := succ_testBit i d
    rw [if_pos (by omega), Nat.testBit_lt_two_pow hi, Nat.testBit_lt_two_pow h] at this
    cases this

theorem grayLoop_eq (c r : Vec d) (fuel i : ℕ) (hf : fuel + i = 2 ^ d) (h0 : 0 < fuel) (out : List (Vec d)) :
    grayLoop c r fuel i (gray i) (signPoint c r (graySigns d i)) out = some (out ++ (List.range' i fuel).map fun n => signPoint c r (graySigns d n)) := by
  induction fuel generalizing i out with
  | zero => omega
  | succ fuel ih =>
    rw [grayLoop]
    dsimp only
    have hlt := ls0_lt d i (by omega)
    by_cases h : ls0 i < d
    · rw [dif_pos h]
      have h2 := hlt.1 h
      have e : Function.update (signPoint c r (graySigns d i)) ⟨ls0 i, h⟩
          (if (gray i ^^^ 1 <<< ls0 i) &&& (1 <<< ls0 i) ≠ 0 then c ⟨ls0 i, h⟩ - r ⟨ls0 i, h⟩ else c ⟨ls0 i, h⟩ + r ⟨ls0 i, h⟩) = signPoint c r (graySigns d (i + 1)) := by
        funext k
        unfold signPoint
        by_cases hk : k = ⟨ls0 i, h⟩
        · subst hk
          rw [Function.update_self]
          refine if_congr ?_ rfl rfl
          rw [← gray_succ, graySigns, Nat.one_shiftLeft, Nat.and_two_pow]
          simp
        · rw [Function.update_of_ne hk]
          have : graySigns d i k = graySigns d (i + 1) k := by
            rw [graySigns, graySigns, gray_succ, Nat.testBit_xor, Nat.one_shiftLeft, Nat.testBit_two_pow, decide_eq_false (fun hh => hk (Fin.ext hh.symm)), Bool.xor_false]
          rw [this]
      rw [e, ← gray_succ, ih (i + 1) (by omega) (by omega), List.range'_succ, List.map_cons]
      simp
    · rw [dif_neg h]
      have : fuel = 0 := by
        by_contra hc
        exact h (hlt.2 (by omega))
      subst this
      simp

theorem evalR_R_eq (c r : Vec d) : evalR_Rfs c r = (List.range (2 ^ d)).map fun n => signPoint c r (graySigns d n) := by
  have h := grayLoop_eq c r (2 ^ d) 0 (by omega) (by positivity) []
  have e1 : gray 0 = 0 := rfl
  have e2 : signPoint c r (graySigns d 0) = fun i => c i + r i := by
    funext k; simp [signPoint, graySigns, e1]
  rw [e1, e2] at h
  rw [evalR_Rfs, h, List.range_eq_range']
  simp

theorem graySigns_injective (d : ℕ) : Function.Injective fun i : Fin (2 ^ d) => graySigns d i := by
  intro i j h
  have h' : ∀ k, k < d → (gray i).testBit k = (gray j).testBit k := fun k hk => congrFun h ⟨k, hk⟩
  have hb : ∀ m k, d ≤ k + m → (i : ℕ).testBit k = (j : ℕ).testBit k := by
    intro m
    induction m with
    | zero =>
      intro k hk
      rw [Nat.testBit_lt_two_pow (lt_of_lt_of_le i.2 (Nat.pow_le_pow_right (by omega) (by omega))),
        Nat.testBit_lt_two_pow (lt_of_lt_of_le j.2 (Nat.pow_le_pow_right (by omega) (by omega)))]
    | succ m ih =>
      intro k hk
      by_cases hkd : d ≤ k
      · exact ih k (by omega)
      · have h1 := h' k (by omega)
        rw [gray_testBit, gray_testBit, ih (k + 1) (by omega)] at h1
        revert h1
        cases (i : ℕ).testBit k <;> cases (j : ℕ).testBit k <;> cases (j : ℕ).testBit (k + 1) <;> simp
  exact Fin.ext (Nat.eq_of_testBit_eq fun k => hb d k (by omega))

theorem graySigns_sum (d : ℕ) (g : (Fin d → Bool) → ℝ) : ∑ n ∈ range (2 ^ d), g (graySigns d n) = ∑ s, g s := by
  rw [Finset.sum_range fun n => g (graySigns d n)]
  have hb : Function.Bijective fun i : Fin (2 ^ d) => graySigns d i := by
    rw [Fintype.bijective_iff_injective_and_card]
    exact ⟨graySigns_injective d, by simp⟩
  exact Fintype.sum_bijective _ hb _ _ fun _ => rfl

/-! ## The sums in terms of the integrand -/

theorem sum_getD (A B C : List ℝ) : ∑ k ∈ range B.length, (A ++ (B ++ C)).getD (A.length + k) 0 = B.sum := by
  induction B generalizing A with
  | nil => simp
  | cons b B ih =>
    rw [List.length_cons, Finset.sum_range_succ']
    have := ih (A ++ [b])
    rw [List.sum_cons, ← this]
    simp [add_comm, add_left_comm]
    rw [List.getElem?_append_right le_rfl]
    simp

theorem flatMap_getD {β : Type*} (l : List β) (g : β → List ℝ) (hg : ∀ b ∈ l, (g b).length = 4) (C : List ℝ) (k m : ℕ) (hk : k < l.length) (hm : m < 4) :
    (l.flatMap g ++ C).getD (4 * k + m) 0 = (g l[k]).getD m 0 := by
  induction l generalizing k with
  | nil => simp at hk
  | cons b l ih =>
    have hb := hg b (by simp)
    rw [List.flatMap_cons, List.append_assoc]
    cases k with
    | zero =>
      rw [List.getD_append _ _ _ _ (by omega)]
      simp
    | succ k =>
      rw [List.getD_append_right _ _ _ _ (by omega), hb, show 4 * (k + 1) + m - 4 = 4 * k + m by omega, ih (fun b hb => hg b (by simp [hb])) k (by simpa using hk)]
      simp

/-- The values of the integrand at the points of one region -/
def gmValues (L : Lambdas) (c h : Vec d) (f : Vec d → ℝ) : ℕ → ℝ := fun k => ((gmPoints L c h).map f).getD k 0

theorem length_plane (d : ℕ) (c r : Vec d) : ((List.finRange d).flatMap fun i => ((List.finRange d).filter (i < ·)).flatMap (plane4 c r i)).length = numRR0 d := by
  have e : ∀ i : Fin d, (((List.finRange d).filter (i < ·)).flatMap (plane4 c r i)).length = 4 * (d - 1 - i) := by
    intro i
    have h1 : ∀ l : List (Fin d), (l.flatMap (plane4 c r i)).length = 4 * l.length := by
      intro l
      induction l with
      | nil => rfl
      | cons a l ih => rw [List.flatMap_cons, List.length_append, ih, List.length_cons]; simp [plane4]; ring
    rw [h1]
    congr 1
    have h2 : ((List.finRange d).filter (i < ·)).toFinset = Finset.Ioi i := by ext; simp
    have h3 : ((List.finRange d).filter (i < ·)).Nodup := (List.nodup_finRange d).filter _
    rw [← List.toFinset_card_of_nodup h3, h2, Fin.card_Ioi]
  rw [List.length_flatMap]
  have e2 : (List.finRange d).map (fun i => (((List.finRange d).filter (i < ·)).flatMap (plane4 c r i)).length) = (List.finRange d).map fun i : Fin d => 4 * (d - 1 - (i : ℕ)) :=
    List.map_congr_left fun i _ => e i
  rw [e2]
  have e3 : ((List.finRange d).map fun i : Fin d => 4 * (d - 1 - (i : ℕ))).sum = ∑ i : Fin d, 4 * (d - 1 - (i : ℕ)) := by
    rw [← List.sum_ofFn, List.ofFn_eq_map]
  rw [e3, Fin.sum_univ_eq_sum_range fun i => 4 * (d - 1 - i), Finset.sum_range_reflect (fun i => 4 * i) d, ← Finset.mul_sum, numRR0]
  have := Finset.sum_range_id_mul_two d
  nlinarith

theorem sum_flatMap_finRange (g : Fin d → List ℝ) : ((List.finRange d).flatMap g).sum = ∑ i, (g i).sum := by
  have : ∀ l : List (Fin d), (l.flatMap g).sum = (l.map fun i => (g i).sum).sum := by
    intro l
    induction l with
    | nil => rfl
    | cons a l ih => simp [ih]
  rw [this, ← List.sum_ofFn, List.ofFn_eq_map]

/-- The points of one region: the centre; 4 points on each axis, at the distances lambda2 and lambda4; 4 points in each coordinate plane; all points with |x_i-c_i| = lambda5 h_i. -/
theorem gmPoints_eq (L : Lambdas) (c h : Vec d) : gmPoints L c h =
    c :: ((List.finRange d).flatMap (axis4 c (fun i => h i * L.l2) (fun i => h i * L.l4)) ++
      (((List.finRange d).flatMap fun i => ((List.finRange d).filter (i < ·)).flatMap (plane4 c (fun i => h i * L.l4) i)) ++
        (List.range (2 ^ d)).map fun n => signPoint c (fun i => h i * L.l5) (graySigns d n))) := by
  rw [gmPoints, evalR0_eq]
  dsimp only
  rw [evalRR0_eq, evalR_R_eq]
  simp

theorem gmPoints_length (L : Lambdas) (c h : Vec d) : (gmPoints L c h).length = gmNum d := by
  rw [gmPoints_eq, List.length_cons, List.length_append, List.length_append, length_plane, List.length_map, List.length_range, gmNum, numRR, Nat.one_shiftLeft]
  have : ((List.finRange d).flatMap (axis4 c (fun i => h i * L.l2) (fun i => h i * L.l4))).length = 4 * d := by
    rw [List.length_flatMap]
    simp [axis4, mul_comm]
  rw [this]; ring

/-- The point on the axis i, the others as in the centre -/
def axisPt (c : Vec d) (i : Fin d) (x : ℝ) : Vec d := Function.update c i (c i + x)
/-- The point in the plane (i,j) -/
def planePt (c : Vec d) (i j : Fin d) (x y : ℝ) : Vec d := Function.update (Function.update c i (c i + x)) j (c j + y)

/-- The sums over the points, in terms of the integrand -/
theorem gmSums_eq (L : Lambdas) (c h : Vec d) (f : Vec d → ℝ) :
    gmSums d (gmValues L c h f) =
      { val0 := f c
        sum2 := ∑ i, (f (axisPt c i (-(h i * L.l2))) + f (axisPt c i (h i * L.l2)))
        sum3 := ∑ i, (f (axisPt c i (-(h i * L.l4))) + f (axisPt c i (h i * L.l4)))
        sum4 := ∑ i, ∑ j ∈ Finset.Ioi i, (f (planePt c i j (-(h i * L.l4)) (-(h j * L.l4))) + f (planePt c i j (h i * L.l4) (-(h j * L.l4))) +
          f (planePt c i j (h i * L.l4) (h j * L.l4)) + f (planePt c i j (-(h i * L.l4)) (h j * L.l4)))
        sum5 := ∑ s : Fin d → Bool, f (signPoint c (fun i => h i * L.l5) s) } := by
  set g : Fin d → List ℝ := fun i => (axis4 c (fun i => h i * L.l2) (fun i => h i * L.l4) i).map f with hg
  set P : List ℝ := ((List.finRange d).flatMap fun i => ((List.finRange d).filter (i < ·)).flatMap (plane4 c (fun i => h i * L.l4) i)).map f with hP
  set Q : List ℝ := (List.range (2 ^ d)).map fun n => f (signPoint c (fun i => h i * L.l5) (graySigns d n)) with hQ
  have hv : (gmPoints L c h).map f = f c :: ((List.finRange d).flatMap g ++ (P ++ Q)) := by
    rw [gmPoints_eq, List.map_cons, List.map_append, List.map_append, List.map_flatMap, ← hP, List.map_map]
    rfl
  have hlg : ∀ i ∈ List.finRange d, (g i).length = 4 := fun i _ => by simp [hg, axis4]
  have hax : ∀ (k : Fin d) (m : ℕ), m < 4 → gmValues L c h f (1 + 4 * k + m) = (g k).getD m 0 := by
    intro k m hm
    rw [gmValues, hv, show 1 + 4 * (k : ℕ) + m = (4 * k + m) + 1 by ring, List.getD_cons_succ, flatMap_getD _ _ hlg _ _ _ (by simp) hm]
    simp
  have hlen : ((List.finRange d).flatMap g).length = 4 * d := by
    rw [List.length_flatMap, List.map_congr_left hlg]
    simp [mul_comm]
  have hlP : P.length = numRR0 d := by rw [hP, List.length_map, length_plane]
  rw [gmSums, Sums.mk.injEq]
  refine ⟨?_, ?_, ?_, ?_, ?_⟩
  · rw [gmValues, hv]; rfl
  · rw [Finset.sum_range]
    refine Finset.sum_congr rfl fun i _ => ?_
    have h0 := hax i 0 (by norm_num)
    rw [add_zero] at h0
    rw [h0, hax i 1 (by norm_num)]
    simp [hg, axis4, axisPt, sub_eq_add_neg]
  · rw [Finset.sum_range]
    refine Finset.sum_congr rfl fun i _ => ?_
    rw [hax i 2 (by norm_num), hax i 3 (by norm_num)]
    simp [hg, axis4, axisPt, sub_eq_add_neg]
  · have := sum_getD (f c :: (List.finRange d).flatMap g) P Q
    rw [hlP, List.length_cons, hlen] at this
    simp only [gmValues, hv, add_comm 1 (4 * d)]
    rw [List.cons_append] at this
    rw [this, hP, List.map_flatMap, sum_flatMap_finRange]
    refine Finset.sum_congr rfl fun i _ => ?_
    have e1 : ∀ l : List (Fin d), ((l.flatMap (plane4 c (fun i => h i * L.l4) i)).map f).sum = (l.map fun j => (f (planePt c i j (-(h i * L.l4)) (-(h j * L.l4))) +
        f (planePt c i j (h i * L.l4) (-(h j * L.l4))) + f (planePt c i j (h i * L.l4) (h j * L.l4)) + f (planePt c i j (-(h i * L.l4)) (h j * L.l4)))).sum := by
      intro l
      induction l with
      | nil => rfl
      | cons a l ih =>
        rw [List.flatMap_cons, List.map_append, List.sum_append, ih, List.map_cons, List.sum_cons]
        simp [plane4, planePt, sub_eq_add_neg, add_assoc]
    rw [e1]
    have h2 : ((List.finRange d).filter (i < ·)).toFinset = Finset.Ioi i := by ext; simp
    have h3 : ((List.finRange d).filter (i < ·)).Nodup := (List.nodup_finRange d).filter _
    rw [← h2, List.sum_toFinset _ h3]
  · have := sum_getD (f c :: ((List.finRange d).flatMap g ++ P)) Q []
    rw [List.append_nil, List.length_cons, List.length_append, hlen, hlP, hQ, List.length_map, List.length_range, ← hQ] at this
    simp only [gmValues, hv, numRR, Nat.one_shiftLeft]
    rw [List.cons_append, List.append_assoc] at this
    rw [show 1 + 4 * d + numRR0 d = 4 * d + numRR0 d + 1 by ring, this, hQ]
    rw [← graySigns_sum d fun s => f (signPoint c (fun i => h i * L.l5) s), Finset.sum_range fun n => f (signPoint c (fun i => h i * L.l5) (graySigns d n))]
    rw [← List.sum_ofFn, List.ofFn_eq_map]
    congr 1
    rw [← List.map_coe_finRange_eq_range, List.map_map]
    rfl

end

end Verif.Cubature
