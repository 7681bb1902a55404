import Mathlib.Analysis.SpecialFunctions.Pow.Real
import Mathlib.Tactic

/-! Model of /repo/src/units.h (exact real arithmetic) and C40. -/
namespace Verif.Units

/-! ## units.h:63-83: base constants -/

noncomputable section
def pc : ℝ := 30856775815 / 10 ^ 10 * 10 ^ 18
def Msun : ℝ := 1988409871 / 10 ^ 9 * 10 ^ 33
def yr : ℝ := 60 * 60 * 24 * (36525 / 100)
def kms : ℝ := 10 ^ 5
def Kpc : ℝ := 10 ^ 3 * pc
def Mpc : ℝ := 10 ^ 6 * pc
def c_light : ℝ := 299792458 / 10 ^ 8 * 10 ^ 10
def arcsec : ℝ := 3141593 / 10 ^ 6 / 180 / 60 / 60
def mas_per_yr : ℝ := 1 / 10 ^ 3 * arcsec / yr
def ly : ℝ := c_light * yr
def Myr : ℝ := 10 ^ 6 * yr
def Gyr : ℝ := 10 ^ 9 * yr
def Kpc_kms : ℝ := Kpc * kms
def Msun_per_pc2 : ℝ := Msun / (pc * pc)
def Msun_per_pc3 : ℝ := Msun / (pc * pc * pc)
def Msun_per_Kpc2 : ℝ := Msun / (Kpc * Kpc)
def Msun_per_Kpc3 : ℝ := Msun / (Kpc * Kpc * Kpc)
def Gev_per_cm3 : ℝ := 1782662 / 10 ^ 6 / 10 ^ 24
def Grav : ℝ := 66743 / 10 ^ 4 / 10 ^ 8

/-- units.h:107-142: the members of InternalUnits. -/
structure InternalUnits where
  length_unit : ℝ
  mass_unit : ℝ
  time_unit : ℝ
  from_Msun : ℝ
  from_pc : ℝ
  from_Kpc : ℝ
  from_Mpc : ℝ
  from_ly : ℝ
  from_yr : ℝ
  from_Myr : ℝ
  from_Gyr : ℝ
  from_mas_per_yr : ℝ
  from_kms : ℝ
  from_Kpc_kms : ℝ
  from_Msun_per_pc2 : ℝ
  from_Msun_per_pc3 : ℝ
  from_Msun_per_Kpc2 : ℝ
  from_Msun_per_Kpc3 : ℝ
  from_Gev_per_cm3 : ℝ
  to_Msun : ℝ
  to_pc : ℝ
  to_Kpc : ℝ
  to_Mpc : ℝ
  to_ly : ℝ
  to_yr : ℝ
  to_Myr : ℝ
  to_Gyr : ℝ
  to_mas_per_yr : ℝ
  to_kms : ℝ
  to_Kpc_kms : ℝ
  to_Msun_per_pc2 : ℝ
  to_Msun_per_pc3 : ℝ
  to_Msun_per_Kpc2 : ℝ
  to_Msun_per_Kpc3 : ℝ
  to_Gev_per_cm3 : ℝ

/-- units.h:145-181: the constructor. -/
def InternalUnits.create (length_unit_in_cm time_unit_in_s : ℝ) : InternalUnits :=
  let length_unit := length_unit_in_cm
  let mass_unit := length_unit_in_cm * length_unit_in_cm * length_unit_in_cm / time_unit_in_s / time_unit_in_s / Grav
  let time_unit := time_unit_in_s
  let from_Msun := Msun / mass_unit
  let from_pc := pc / length_unit
  let from_Kpc := Kpc / length_unit
  let from_Mpc := Mpc / length_unit
  let from_ly := ly / length_unit
  let from_yr := yr / time_unit
  let from_Myr := Myr / time_unit
  let from_Gyr := Gyr / time_unit
  let from_mas_per_yr := mas_per_yr * time_unit
  let from_kms := kms / (length_unit / time_unit)
  let from_Kpc_kms := Kpc_kms / (length_unit * length_unit / time_unit)
  let from_Msun_per_pc2 := Msun_per_pc2 / (mass_unit / length_unit / length_unit)
  let from_Msun_per_pc3 := Msun_per_pc3 / (mass_unit / length_unit / length_unit / length_unit)
  let from_Msun_per_Kpc2 := Msun_per_Kpc2 / (mass_unit / length_unit / length_unit)
  let from_Msun_per_Kpc3 := Msun_per_Kpc3 / (mass_unit / length_unit / length_unit / length_unit)
  let from_Gev_per_cm3 := Gev_per_cm3 / (mass_unit / length_unit / length_unit / length_unit)
  { length_unit, mass_unit, time_unit, from_Msun, from_pc, from_Kpc, from_Mpc, from_ly, from_yr, from_Myr, from_Gyr,
    from_mas_per_yr, from_kms, from_Kpc_kms, from_Msun_per_pc2, from_Msun_per_pc3, from_Msun_per_Kpc2,
    from_Msun_per_Kpc3, from_Gev_per_cm3,
    to_Msun := 1 / from_Msun
    to_pc := 1 / from_pc
    to_Kpc := 1 / from_Kpc
    to_Mpc := 1 / from_Mpc
    to_ly := 1 / from_ly
    to_yr := 1 / from_yr
    to_Myr := 1 / from_Myr
    to_Gyr := 1 / from_Gyr
    to_mas_per_yr := 1 / from_mas_per_yr
    to_kms := 1 / from_kms
    to_Kpc_kms := 1 / from_Kpc_kms
    to_Msun_per_pc2 := 1 / from_Msun_per_pc2
    to_Msun_per_pc3 := 1 / from_Msun_per_pc3
    to_Msun_per_Kpc2 := 1 / from_Msun_per_Kpc2
    to_Msun_per_Kpc3 := 1 / from_Msun_per_Kpc3
    to_Gev_per_cm3 := 1 / from_Gev_per_cm3 }

/-- units.h:213-217. -/
structure ExternalUnits where
  lengthUnit : ℝ
  velocityUnit : ℝ
  massUnit : ℝ
  timeUnit : ℝ

/-- units.h:220-221. -/
def ExternalUnits.trivial : ExternalUnits := ⟨1, 1, 1, 1⟩

/-- units.h:225-229. -/
def ExternalUnits.create (unit : InternalUnits) (l v m : ℝ) : ExternalUnits :=
  let lengthUnit := unit.from_pc * l / pc
  let velocityUnit := unit.from_kms * v / kms
  { lengthUnit, velocityUnit, massUnit := unit.from_Msun * m / Msun, timeUnit := lengthUnit / velocityUnit }

/-! ## Specification -/

/-- A physical dimension: exponents of length, mass and time. -/
structure Dim where
  l : ℤ
  m : ℤ
  t : ℤ

/-- The size in CGS of the unit of a dimension, if the units of length, mass and time are `L`, `M`, `T` (in CGS). -/
def cgs (L M T : ℝ) (d : Dim) : ℝ := L ^ d.l * M ^ d.m * T ^ d.t

/-- The table of all units offered by the class: dimension, value in CGS, and the two conversion factors. -/
def table (u : InternalUnits) : List (Dim × ℝ × ℝ × ℝ) :=
  [(⟨0, 1, 0⟩, Msun, u.from_Msun, u.to_Msun),
   (⟨1, 0, 0⟩, pc, u.from_pc, u.to_pc),
   (⟨1, 0, 0⟩, 1000 * pc, u.from_Kpc, u.to_Kpc),
   (⟨1, 0, 0⟩, 1000000 * pc, u.from_Mpc, u.to_Mpc),
   (⟨1, 0, 0⟩, c_light * yr, u.from_ly, u.to_ly),
   (⟨0, 0, 1⟩, yr, u.from_yr, u.to_yr),
   (⟨0, 0, 1⟩, 1000000 * yr, u.from_Myr, u.to_Myr),
   (⟨0, 0, 1⟩, 1000000000 * yr, u.from_Gyr, u.to_Gyr),
   (⟨0, 0, -1⟩, arcsec / 1000 / yr, u.from_mas_per_yr, u.to_mas_per_yr),
   (⟨1, 0, -1⟩, kms, u.from_kms, u.to_kms),
   (⟨2, 0, -1⟩, 1000 * pc * kms, u.from_Kpc_kms, u.to_Kpc_kms),
   (⟨-2, 1, 0⟩, Msun / pc ^ 2, u.from_Msun_per_pc2, u.to_Msun_per_pc2),
   (⟨-3, 1, 0⟩, Msun / pc ^ 3, u.from_Msun_per_pc3, u.to_Msun_per_pc3),
   (⟨-2, 1, 0⟩, Msun / (1000 * pc) ^ 2, u.from_Msun_per_Kpc2, u.to_Msun_per_Kpc2),
   (⟨-3, 1, 0⟩, Msun / (1000 * pc) ^ 3, u.from_Msun_per_Kpc3, u.to_Msun_per_Kpc3),
   (⟨-3, 1, 0⟩, Gev_per_cm3, u.from_Gev_per_cm3, u.to_Gev_per_cm3)]

theorem const_pos : 0 < pc ∧ 0 < Msun ∧ 0 < yr ∧ 0 < kms ∧ 0 < c_light ∧ 0 < arcsec ∧ 0 < Gev_per_cm3 ∧ 0 < Grav := by
  refine ⟨?_, ?_, ?_, ?_, ?_, ?_, ?_, ?_⟩
  · unfold pc; positivity
  · unfold Msun; positivity
  · unfold yr; positivity
  · unfold kms; positivity
  · unfold c_light; positivity
  · unfold arcsec; positivity
  · unfold Gev_per_cm3; positivity
  · unfold Grav; positivity

/-- C40: the internal mass unit makes the gravitational constant equal to one: `G M T² / L³ = 1`. -/
theorem C40_grav_unity (L T : ℝ) (hL : 0 < L) (hT : 0 < T) (u : InternalUnits) (hu : u = InternalUnits.create L T) :
    u.length_unit = L ∧ u.time_unit = T ∧ 0 < u.mass_unit ∧ Grav * u.mass_unit * T ^ 2 / L ^ 3 = 1 := by
  subst hu
  have hG := const_pos.2.2.2.2.2.2.2
  refine ⟨rfl, rfl, ?_, ?_⟩
  · show 0 < L * L * L / T / T / Grav
    positivity
  · show Grav * (L * L * L / T / T / Grav) * T ^ 2 / L ^ 3 = 1
    field_simp

/-- C40: every conversion factor is positive, to_X and from_X are reciprocal, and from_X is the size of X measured in the
internal units of its dimension. Hence 1 X expressed in internal units and converted back is 1 X. -/
theorem C40_factors (L T : ℝ) (hL : 0 < L) (hT : 0 < T) (u : InternalUnits) (hu : u = InternalUnits.create L T) :
    ∀ e ∈ table u, 0 < e.2.2.1 ∧ e.2.2.1 * e.2.2.2 = 1 ∧ e.2.2.1 * cgs L u.mass_unit T e.1 = e.2.1 := by
  have hM := (C40_grav_unity L T hL hT u hu).2.2.1
  have hm : u.mass_unit = L * L * L / T / T / Grav := by rw [hu]; rfl
  obtain ⟨h1, h2, h3, h4, h5, h6, h7, h8⟩ := const_pos
  intro e he
  subst hu
  simp only [table, List.mem_cons, List.not_mem_nil, or_false] at he
  generalize hMM : (InternalUnits.create L T).mass_unit = M at *
  simp only [InternalUnits.create] at he hMM
  rw [hMM] at he
  rcases he with rfl | rfl | rfl | rfl | rfl | rfl | rfl | rfl | rfl | rfl | rfl | rfl | rfl | rfl | rfl | rfl <;>
  simp only [cgs, Kpc, Mpc, ly, Myr, Gyr, mas_per_yr, Kpc_kms, Msun_per_pc2, Msun_per_pc3, Msun_per_Kpc2, Msun_per_Kpc3,
    zpow_neg, zpow_zero, zpow_one, zpow_ofNat, mul_one, one_mul] <;>
  refine ⟨by positivity, by field_simp, by field_simp; try norm_num⟩

/-- C40: any quantity computed in internal units with G=1 has the same physical value for every choice of internal units:
a velocity `√(M/R)` (circular speed at radius `R` around a mass `M`). -/
theorem C40_invariance (L T M R : ℝ) (hL : 0 < L) (hT : 0 < T) (hM : 0 < M) (hR : 0 < R) (u : InternalUnits)
    (hu : u = InternalUnits.create L T) :
    Real.sqrt ((M * u.from_Msun) / (R * u.from_Kpc)) * u.to_kms =
      Real.sqrt (Grav * (M * Msun) / (R * (1000 * pc))) / kms := by
  obtain ⟨h1, h2, h3, h4, h5, h6, h7, h8⟩ := const_pos
  have key : (M * u.from_Msun) / (R * u.from_Kpc) = Grav * (M * Msun) / (R * (1000 * pc)) * (T / L) ^ 2 := by
    subst hu
    simp only [InternalUnits.create, Kpc]
    field_simp
    norm_num
  have k2 : u.to_kms = L / T / kms := by
    subst hu
    simp only [InternalUnits.create]
    field_simp
  rw [key, Real.sqrt_mul (by positivity), Real.sqrt_sq (by positivity), k2]
  field_simp

/-- C40: external units: converting a length, velocity, mass or time given in the external unit to internal units, and
back to physical units, gives the external value in CGS; the time unit is the length unit over the velocity unit. -/
theorem C40_external (L T : ℝ) (hL : 0 < L) (hT : 0 < T) (u : InternalUnits) (hu : u = InternalUnits.create L T)
    (l v m : ℝ) (hl : 0 < l) (hv : 0 < v) (e : ExternalUnits) (he : e = ExternalUnits.create u l v m) :
    e.lengthUnit * L = l ∧ e.velocityUnit * (L / T) = v ∧ e.massUnit * u.mass_unit = m ∧ e.timeUnit * T = l / v ∧
    e.velocityUnit * e.timeUnit = e.lengthUnit := by
  have hM := (C40_grav_unity L T hL hT u hu).2.2.1
  obtain ⟨h1, h2, h3, h4, h5, h6, h7, h8⟩ := const_pos
  subst he hu
  generalize hMM : (InternalUnits.create L T).mass_unit = M at *
  simp only [InternalUnits.create] at hMM
  simp only [ExternalUnits.create, InternalUnits.create]
  rw [hMM]
  refine ⟨by field_simp, by field_simp, by field_simp, by field_simp, by field_simp⟩

/-- C40: if the external units are those of the internal system itself, nothing is converted: this is the trivial
converter. -/
theorem C40_external_trivial (L T : ℝ) (hL : 0 < L) (hT : 0 < T) (u : InternalUnits) (hu : u = InternalUnits.create L T) :
    ExternalUnits.create u L (L / T) u.mass_unit = ExternalUnits.trivial := by
  have hM := (C40_grav_unity L T hL hT u hu).2.2.1
  obtain ⟨a, b, c, d, -⟩ := C40_external L T hL hT u hu L (L / T) u.mass_unit hL (by positivity) _ rfl
  have e1 : (ExternalUnits.create u L (L / T) u.mass_unit).lengthUnit = 1 := by
    field_simp at a; linarith
  have e2 : (ExternalUnits.create u L (L / T) u.mass_unit).velocityUnit = 1 :=
    mul_right_cancel₀ (show L / T ≠ 0 by positivity) (by rw [b, one_mul])
  have e3 : (ExternalUnits.create u L (L / T) u.mass_unit).massUnit = 1 :=
    mul_right_cancel₀ hM.ne' (by rw [c, one_mul])
  have e4 : (ExternalUnits.create u L (L / T) u.mass_unit).timeUnit = 1 :=
    mul_right_cancel₀ hT.ne' (by rw [d, one_mul]; field_simp)
  cases hh : ExternalUnits.create u L (L / T) u.mass_unit with
  | mk a1 a2 a3 a4 => rw [hh] at e1 e2 e3 e4; simp only at e1 e2 e3 e4; rw [e1, e2, e3, e4]; rfl

/-- The hypotheses are met by the standard units (units.h:185). -/
example : 0 < Kpc ∧ 0 < Myr := by
  obtain ⟨h1, h2, h3, -⟩ := const_pos
  exact ⟨by unfold Kpc; positivity, by unfold Myr; positivity⟩

end
end Verif.Units
