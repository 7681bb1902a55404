import Verif.Random.Period
import Mathlib.Logic.Function.Iterate
import Mathlib.Data.Fintype.Card
import Mathlib.Data.Fintype.Prod
import Mathlib.Data.Fintype.EquivFin

/-! Bijectivity of the bit-mixing steps: helper lemmas. -/
namespace Verif.Random

theorem shr_fixed (k : Nat) (hk : 0 < k) (d : W) (h : d = d >>> k) : d = 0#64 := by
  have h2 : d.toNat = d.toNat / 2^k := by
    conv_lhs => rw [h]
    rw [BitVec.toNat_ushiftRight, Nat.shiftRight_eq_div_pow]
  by_contra hd
  have hpos : 0 < d.toNat := by
    rcases Nat.eq_zero_or_pos d.toNat with h0 | h0
    · exact absurd (BitVec.eq_of_toNat_eq (by simpa using h0)) hd
    · exact h0
  have : d.toNat / 2^k < d.toNat := Nat.div_lt_self hpos (Nat.one_lt_two_pow (by omega))
  omega

theorem shl_fixed (k : Nat) (hk : 0 < k) (d : W) (h : d = d <<< k) : d = 0#64 := by
  have key : ∀ n, ∀ i (hi : i < 64), i ≤ n → d[i] = false := by
    intro n
    induction n with
    | zero =>
      intro i hi hin
      have : d[i] = (d <<< k)[i] := by rw [← h]
      rw [this, BitVec.getElem_shiftLeft]
      simp; omega
    | succ n ih =>
      intro i hi hin
      have : d[i] = (d <<< k)[i] := by rw [← h]
      rw [this, BitVec.getElem_shiftLeft]
      by_cases hik : i < k
      · simp [hik]
      · simp [ih (i-k) (by omega) (by omega)]
  ext i hi
  simp [key i i hi le_rfl]

theorem xorshr_inj (k : Nat) (hk : 0 < k) (x y : W) (h : x ^^^ (x >>> k) = y ^^^ (y >>> k)) :
    x = y := by
  have hd : x ^^^ y = (x ^^^ y) >>> k := by
    rw [BitVec.ushiftRight_xor_distrib]
    have h2 : x ^^^ (x >>> k) ^^^ (x >>> k) ^^^ y = y ^^^ (y >>> k) ^^^ (x >>> k) ^^^ y := by rw [h]
    rw [BitVec.xor_assoc x, BitVec.xor_self, BitVec.xor_zero] at h2
    rw [h2]
    rw [BitVec.xor_assoc y, BitVec.xor_comm y, BitVec.xor_assoc, BitVec.xor_self, BitVec.xor_zero, BitVec.xor_comm]
  have := shr_fixed k hk _ hd
  exact BitVec.xor_eq_zero_iff.1 this

theorem xorshl_inj (k : Nat) (hk : 0 < k) (x y : W) (h : x ^^^ (x <<< k) = y ^^^ (y <<< k)) :
    x = y := by
  have hd : x ^^^ y = (x ^^^ y) <<< k := by
    rw [BitVec.shiftLeft_xor_distrib]
    have h2 : x ^^^ (x <<< k) ^^^ (x <<< k) ^^^ y = y ^^^ (y <<< k) ^^^ (x <<< k) ^^^ y := by rw [h]
    rw [BitVec.xor_assoc x, BitVec.xor_self, BitVec.xor_zero] at h2
    rw [h2]
    rw [BitVec.xor_assoc y, BitVec.xor_comm y, BitVec.xor_assoc, BitVec.xor_self, BitVec.xor_zero, BitVec.xor_comm]
  have := shl_fixed k hk _ hd
  exact BitVec.xor_eq_zero_iff.1 this

theorem mul_inj (m mi : W) (hm : m * mi = 1#64) (x y : W) (h : x * m = y * m) : x = y := by
  have := congrArg (· * mi) h
  simpa [BitVec.mul_assoc, hm] using this

theorem smMix_inj (x y : W) (h : smMix x = smMix y) : x = y := by
  unfold smMix at h
  have h1 := xorshr_inj 31 (by decide) _ _ h
  have h2 := mul_inj _ 0x319642b2d24d8ec3 (by decide) _ _ h1
  have h3 := xorshr_inj 27 (by decide) _ _ h2
  have h4 := mul_inj _ 0x96de1b173f119089 (by decide) _ _ h3
  exact xorshr_inj 30 (by decide) _ _ h4

theorem xsNext_inj (x y : W) (h : xsNext x = xsNext y) : x = y := by
  unfold xsNext at h
  exact xorshr_inj 12 (by decide) _ _ (xorshl_inj 25 (by decide) _ _ (xorshr_inj 27 (by decide) _ _ h))

theorem xsOut_inj (x y : W) (h : xsOut x = xsOut y) : x = y :=
  xsNext_inj _ _ (mul_inj _ 0x59071d96d81ecd35 (by decide) _ _ h)

/-- Words form a finite type (through `Fin (2^64)`). -/
def wEquiv : W ≃ Fin (2^64) where
  toFun x := x.toFin
  invFun x := ⟨x⟩
  left_inv _ := rfl
  right_inv _ := rfl

noncomputable instance : Fintype W := Fintype.ofEquiv _ wEquiv.symm

theorem card_W : Fintype.card W = 2^64 := by
  rw [Fintype.card_congr wEquiv, Fintype.card_fin]

theorem xsOut_surj : Function.Surjective xsOut :=
  Finite.surjective_of_injective (fun _ _ h => xsOut_inj _ _ h)

end Verif.Random
