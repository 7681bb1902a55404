import Verif.Random.Model
import Mathlib.Logic.Function.Iterate
import Mathlib.Tactic.Positivity

/-! GF(2)-linear algebra of the xoroshiro128+ state update: helper lemmas for `Props.lean`. -/
namespace Verif.Random

/-- bitwise sum of two states -/
def xadd (a b : XState) : XState := (a.1 ^^^ b.1, a.2 ^^^ b.2)

/-- the all-zero state -/
def xzero : XState := (0#64, 0#64)

theorem xadd_comm (a b : XState) : xadd a b = xadd b a := by
  simp [xadd, BitVec.xor_comm]
theorem xadd_assoc (a b c : XState) : xadd (xadd a b) c = xadd a (xadd b c) := by
  simp [xadd, BitVec.xor_assoc]
@[simp] theorem xadd_zero (a : XState) : xadd a xzero = a := by simp [xadd, xzero]
@[simp] theorem zero_xadd (a : XState) : xadd xzero a = a := by simp [xadd, xzero]
@[simp] theorem xadd_self (a : XState) : xadd a a = xzero := by simp [xadd, xzero]
theorem xadd_swap (a b c d : XState) : xadd (xadd a b) (xadd c d) = xadd (xadd a c) (xadd b d) := by
  simp only [xadd, Prod.mk.injEq]; constructor <;> ac_rfl

theorem rot_or_xor (k : Nat) (hk : k ≤ 64) (x : W) :
    (x <<< k) ||| (x >>> (64 - k)) = (x <<< k) ^^^ (x >>> (64 - k)) := by
  ext i hi
  simp only [BitVec.getElem_or, BitVec.getElem_xor, BitVec.getElem_shiftLeft, BitVec.getElem_ushiftRight]
  by_cases h : i < k
  · simp [h]
  · rw [BitVec.getLsbD_of_ge x (64 - k + i) (by omega)]; simp

theorem xoNext_xor_form (s : XState) : xoNext s =
    ((s.1 <<< 55 ^^^ s.1 >>> 9) ^^^ (s.2 ^^^ s.1) ^^^ ((s.2 ^^^ s.1) <<< 14),
      ((s.2 ^^^ s.1) <<< 36) ^^^ ((s.2 ^^^ s.1) >>> 28)) := by
  unfold xoNext
  simp only [rot_or_xor 55 (by decide) s.1, rot_or_xor 36 (by decide) (s.2 ^^^ s.1), Nat.reduceSub] 

theorem xor_left_comm' (a b c : W) : a ^^^ (b ^^^ c) = b ^^^ (a ^^^ c) := by
  rw [← BitVec.xor_assoc, BitVec.xor_comm a b, BitVec.xor_assoc]

theorem xoNext_xadd (a b : XState) : xoNext (xadd a b) = xadd (xoNext a) (xoNext b) := by
  simp only [xoNext_xor_form, xadd, Prod.mk.injEq, BitVec.shiftLeft_xor_distrib,
    BitVec.ushiftRight_xor_distrib]
  generalize a.1 <<< 55 = x1, a.1 >>> 9 = x2, a.2 <<< 14 = x3, a.1 <<< 14 = x4, a.2 <<< 36 = x5,
    a.1 <<< 36 = x6, a.2 >>> 28 = x7, a.1 >>> 28 = x8
  generalize b.1 <<< 55 = y1, b.1 >>> 9 = y2, b.2 <<< 14 = y3, b.1 <<< 14 = y4, b.2 <<< 36 = y5,
    b.1 <<< 36 = y6, b.2 >>> 28 = y7, b.1 >>> 28 = y8
  constructor <;> simp only [BitVec.xor_assoc, BitVec.xor_comm, xor_left_comm']

@[simp] theorem xoNext_zero : xoNext xzero = xzero := by decide

/-- value at the operator `xoNext` of the GF(2)-polynomial whose coefficients are the bits of `p` -/
def ev : Nat → Nat → XState → XState
  | 0, _, _ => xzero
  | f+1, p, s => xadd (if p % 2 = 1 then s else xzero) (ev f (p/2) (xoNext s))

theorem ev_xadd (f p : Nat) (a b : XState) : ev f p (xadd a b) = xadd (ev f p a) (ev f p b) := by
  induction f generalizing p a b with
  | zero => simp [ev]
  | succ f ih =>
    simp only [ev, xoNext_xadd, ih]
    split
    · exact xadd_swap _ _ _ _
    · simp

theorem ev_zero_poly (f : Nat) (s : XState) : ev f 0 s = xzero := by
  induction f generalizing s with
  | zero => rfl
  | succ f ih => simp [ev, ih]

theorem ev_xor (f p q : Nat) (s : XState) : ev f (p ^^^ q) s = xadd (ev f p s) (ev f q s) := by
  induction f generalizing p q s with
  | zero => simp [ev]
  | succ f ih =>
    have h1 : (p ^^^ q) / 2 = p/2 ^^^ q/2 := Nat.xor_div_two
    have h2 : (p ^^^ q) % 2 = 1 ↔ ¬ (p % 2 = 1 ↔ q % 2 = 1) := Nat.xor_mod_two_eq_one
    simp only [ev, h1, ih]
    rw [xadd_swap]
    congr 1
    by_cases hp : p % 2 = 1 <;> by_cases hq : q % 2 = 1 <;> simp [h2, hp, hq]

theorem ev_next (f p : Nat) (s : XState) : ev f p (xoNext s) = xoNext (ev f p s) := by
  induction f generalizing p s with
  | zero => simp [ev]
  | succ f ih =>
    simp only [ev, xoNext_xadd, ih]
    congr 1
    split <;> simp

theorem ev_succ_fuel (f p : Nat) (s : XState) (h : p < 2^f) : ev (f+1) p s = ev f p s := by
  induction f generalizing p s with
  | zero => have : p = 0 := by omega
            subst this; simp [ev]
  | succ f ih =>
    rw [ev, ih _ _ (by rw [Nat.pow_succ] at h; omega)]; rfl

/-- polynomial evaluation with fuel 129, enough for the characteristic polynomial -/
def E (p : Nat) (s : XState) : XState := ev 129 p s

theorem E_two_mul (p : Nat) (h : p < 2^128) (s : XState) : E (2*p) s = xoNext (E p s) := by
  have h1 : E (2*p) s = ev 128 p (xoNext s) := by
    unfold E; rw [ev]; simp
  rw [h1, ev_next]; unfold E; rw [ev_succ_fuel _ _ _ h]

theorem E_one (s : XState) : E 1 s = s := by
  unfold E; rw [ev]; simp [ev_zero_poly]

theorem E_xor (p q : Nat) (s : XState) : E (p ^^^ q) s = xadd (E p s) (E q s) := ev_xor ..

/-! ### vanishing on a basis -/

theorem word_split (k : Nat) (hk : k < 64) (w : W) (h : w.toNat < 2^(k+1)) :
    w.toNat < 2^k ∨ ((w ^^^ (1#64 <<< k)).toNat < 2^k ∧ w = (w ^^^ (1#64 <<< k)) ^^^ (1#64 <<< k)) := by
  by_cases hb : w.toNat < 2^k
  · exact Or.inl hb
  · right
    constructor
    · have h1 : (1#64 <<< k).toNat = 2^k := by
        rw [BitVec.toNat_shiftLeft]
        simp [Nat.shiftLeft_eq]
        exact Nat.pow_lt_pow_right (a := 2) (by decide) hk
      rw [BitVec.toNat_xor, h1]
      apply Nat.lt_of_div_eq_zero (by positivity)
      rw [Nat.xor_div_two_pow]
      have : w.toNat / 2^k = 1 := by
        apply Nat.div_eq_of_lt_le <;> (rw [Nat.pow_succ] at h; omega)
      rw [this, Nat.div_self (by positivity)]; rfl
    · simp [BitVec.xor_assoc]

theorem vanish_of_basis (f : XState → XState) (hadd : ∀ a b, f (xadd a b) = xadd (f a) (f b))
    (h0 : ∀ i : Fin 64, f (1#64 <<< i.val, 0#64) = xzero)
    (h1 : ∀ i : Fin 64, f (0#64, 1#64 <<< i.val) = xzero) (s : XState) : f s = xzero := by
  have hz : f xzero = xzero := by
    have := hadd xzero xzero
    simp at this; exact this
  have a0 : ∀ k, k ≤ 64 → ∀ w : W, w.toNat < 2^k → f (w, 0#64) = xzero := by
    intro k
    induction k with
    | zero => intro _ w hw
              have : w = 0#64 := by apply BitVec.eq_of_toNat_eq; simp; omega
              rw [this]; exact hz
    | succ k ih =>
      intro hk w hw
      rcases word_split k (by omega) w hw with h | ⟨h, e⟩
      · exact ih (by omega) w h
      · have : (w, 0#64) = xadd (w ^^^ (1#64 <<< k), 0#64) (1#64 <<< k, 0#64) := by
          simp only [xadd, Prod.mk.injEq]; exact ⟨e, by simp⟩
        rw [this, hadd, ih (by omega) _ h, h0 ⟨k, by omega⟩]; simp
  have a1 : ∀ k, k ≤ 64 → ∀ w : W, w.toNat < 2^k → f (0#64, w) = xzero := by
    intro k
    induction k with
    | zero => intro _ w hw
              have : w = 0#64 := by apply BitVec.eq_of_toNat_eq; simp; omega
              rw [this]; exact hz
    | succ k ih =>
      intro hk w hw
      rcases word_split k (by omega) w hw with h | ⟨h, e⟩
      · exact ih (by omega) w h
      · have : (0#64, w) = xadd (0#64, w ^^^ (1#64 <<< k)) (0#64, 1#64 <<< k) := by
          simp only [xadd, Prod.mk.injEq]; exact ⟨by simp, e⟩
        rw [this, hadd, ih (by omega) _ h, h1 ⟨k, by omega⟩]; simp
  have : s = xadd (s.1, 0#64) (0#64, s.2) := by simp [xadd]
  rw [this, hadd, a0 64 (le_refl _) _ s.1.isLt, a1 64 (le_refl _) _ s.2.isLt]; simp

/-- characteristic polynomial of `xoNext` -/
def Pc : Nat := 0x100653ced7f29f88a5fd66762f0e1c001

set_option maxRecDepth 10000 in
theorem ev_Pc_basis0 : ∀ i : Fin 64, ev 129 Pc (1#64 <<< i.val, 0#64) = xzero := by decide +kernel
set_option maxRecDepth 10000 in
theorem ev_Pc_basis1 : ∀ i : Fin 64, ev 129 Pc (0#64, 1#64 <<< i.val) = xzero := by decide +kernel

theorem E_Pc (s : XState) : E Pc s = xzero :=
  vanish_of_basis (E Pc) (ev_xadd 129 Pc) ev_Pc_basis0 ev_Pc_basis1 s

/-! ### multiplication of polynomials modulo `Pc` -/

/-- multiply by `x` modulo `Pc` -/
def dbl (a : Nat) : Nat := if 2^127 ≤ a then (2*a) ^^^ Pc else 2*a

theorem dbl_lt (a : Nat) (h : a < 2^128) : dbl a < 2^128 := by
  unfold dbl
  split
  · apply Nat.lt_of_div_eq_zero (by positivity)
    rw [Nat.xor_div_two_pow]
    have h1 : 2*a / 2^128 = 1 := by
      apply Nat.div_eq_of_lt_le <;> omega
    have h2 : Pc / 2^128 = 1 := by decide
    rw [h1, h2]; rfl
  · omega

theorem E_dbl (a : Nat) (h : a < 2^128) (s : XState) : E (dbl a) s = xoNext (E a s) := by
  unfold dbl
  split
  · rw [E_xor, E_Pc, xadd_zero, E_two_mul a h]
  · rw [E_two_mul a h]

/-- carry-less product modulo `Pc` -/
def mm : Nat → Nat → Nat → Nat
  | 0, _, _ => 0
  | f+1, a, b => (if b % 2 = 1 then a else 0) ^^^ mm f (dbl a) (b/2)

theorem mm_lt (f a b : Nat) (h : a < 2^128) : mm f a b < 2^128 := by
  induction f generalizing a b with
  | zero => simp [mm]
  | succ f ih =>
    rw [mm]
    apply Nat.xor_lt_two_pow
    · split <;> omega
    · exact ih _ _ (dbl_lt a h)

theorem E_mm (f a b : Nat) (h : a < 2^128) (s : XState) : E (mm f a b) s = ev f b (E a s) := by
  induction f generalizing a b s with
  | zero => simp only [mm, ev]; exact ev_zero_poly 129 s
  | succ f ih =>
    rw [mm, E_xor, ih _ _ (dbl_lt a h), E_dbl a h, ev]
    congr 1
    split
    · rfl
    · exact ev_zero_poly _ _

theorem E_mul (a b : Nat) (ha : a < 2^128) (hb : b < 2^128) (s : XState) :
    E (mm 128 a b) s = E b (E a s) := by
  rw [E_mm _ _ _ ha]
  exact (ev_succ_fuel 128 b (E a s) hb).symm

/-- `x^n` modulo `Pc` by repeated squaring -/
def pw : Nat → Nat → Nat
  | 0, _ => 1
  | f+1, n =>
    let h := pw f (n/2)
    if n % 2 = 1 then dbl (mm 128 h h) else mm 128 h h

theorem pw_lt (f n : Nat) : pw f n < 2^128 := by
  induction f generalizing n with
  | zero => simp [pw]
  | succ f ih =>
    simp only [pw]; split
    · exact dbl_lt _ (mm_lt _ _ _ (ih _))
    · exact mm_lt _ _ _ (ih _)

theorem E_pw (f n : Nat) (h : n < 2^f) (s : XState) : E (pw f n) s = xoNext^[n] s := by
  induction f generalizing n s with
  | zero => have : n = 0 := by omega
            subst this; simp [pw, E_one]
  | succ f ih =>
    have hn : n/2 < 2^f := by rw [Nat.pow_succ] at h; omega
    have hsq : E (mm 128 (pw f (n/2)) (pw f (n/2))) s = xoNext^[n/2 + n/2] s := by
      rw [E_mul _ _ (pw_lt _ _) (pw_lt _ _), ih _ hn, ih _ hn, Function.iterate_add_apply]
    simp only [pw]
    split
    · rw [E_dbl _ (mm_lt _ _ _ (pw_lt _ _)), hsq, ← Function.iterate_succ_apply' xoNext]
      congr 2; omega
    · rw [hsq]; congr 2; omega

end Verif.Random
