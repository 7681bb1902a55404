import Verif.Core.Scaling

/-! C17: accuracy of `scale` for the cubic transformation (/repo/src/math_core.cpp:322-340), in exact arithmetic. -/

namespace Verif.Scaling

open Real Set

/-- math_core.cpp:337: one iteration of the Newton method -/
noncomputable def cubStep (w s : ℝ) : ℝ := s - 1 / 6 * (s * s * (3 - 2 * s) - w) / (s * (1 - s))

/-- math_core.cpp:322-340 -/
noncomputable def scaleCub (ul ur u : ℝ) : ℝ :=
  if u = ul then 0 else if u = ur then 1 else
  let half := 0.5 * (ul + ur)
  if u = half then 0.5 else
  let w := if u < half then (u - ul) / (ur - ul) else (ur - u) / (ur - ul)
  let s := 1 / √3 * √w + w * (0.1184 + 0.1291 * w)
  let s := cubStep w (cubStep w s)
  if u < half then s else 1 - s

/-! ### the initial guess: bounds on a polynomial, as combinations of non-negative products -/

theorem guess_lo_up {r : ℝ} (h0 : (102 / 125 : ℝ) ≤ r) (h1 : r ≤ (227 / 250 : ℝ)) : (r - 1 + (3 / 2 * (1 - r ^ 2)) * (3 - 2 * (3 / 2 * (1 - r ^ 2))) * (1184 / 10000 + 1291 / 10000 * ((3 / 2 * (1 - r ^ 2)) ^ 2 * (3 - 2 * (3 / 2 * (1 - r ^ 2)))))) ≤ 3 / 4000 := by
  have a : 0 ≤ r - 102 / 125 := sub_nonneg.mpr h0
  have b : 0 ≤ 227 / 250 - r := sub_nonneg.mpr h1
  have key : 0 ≤ (800079262076412668684896 / 25891569508530625) * (r - (102 / 125)) ^ 0 * ((227 / 250) - r) ^ 10 + (732476378396091962840896 / 5178313901706125) * (r - (102 / 125)) ^ 1 * ((227 / 250) - r) ^ 9 + (1016685311745973209968016 / 5178313901706125) * (r - (102 / 125)) ^ 2 * ((227 / 250) - r) ^ 8 + (204537752874157377233688 / 5178313901706125) * (r - (102 / 125)) ^ 3 * ((227 / 250) - r) ^ 7 + (1643792232893598978506079 / 10356627803412250) * (r - (102 / 125)) ^ 4 * ((227 / 250) - r) ^ 6 + (28236721141836040423504806 / 25891569508530625) * (r - (102 / 125)) ^ 5 * ((227 / 250) - r) ^ 5 + (84793689289665317056806579 / 41426511213649000) * (r - (102 / 125)) ^ 6 * ((227 / 250) - r) ^ 4 + (19623913746497238064031961 / 10356627803412250) * (r - (102 / 125)) ^ 7 * ((227 / 250) - r) ^ 3 + (159430695158934489200465133 / 165706044854596000) * (r - (102 / 125)) ^ 8 * ((227 / 250) - r) ^ 2 + (10637113383060786423787153 / 41426511213649000) * (r - (102 / 125)) ^ 9 * ((227 / 250) - r) ^ 1 + (93399526746916460970046237 / 3314120897091920000) * (r - (102 / 125)) ^ 10 * ((227 / 250) - r) ^ 0 := by positivity
  nlinarith only [key]

theorem guess_lo_dn {r : ℝ} (h0 : (102 / 125 : ℝ) ≤ r) (h1 : r ≤ (227 / 250 : ℝ)) : -(r - 1 + (3 / 2 * (1 - r ^ 2)) * (3 - 2 * (3 / 2 * (1 - r ^ 2))) * (1184 / 10000 + 1291 / 10000 * ((3 / 2 * (1 - r ^ 2)) ^ 2 * (3 - 2 * (3 / 2 * (1 - r ^ 2)))))) ≤ 3 / 4000 := by
  have a : 0 ≤ r - 102 / 125 := sub_nonneg.mpr h0
  have b : 0 ≤ 227 / 250 - r := sub_nonneg.mpr h1
  have key : 0 ≤ (93990409554446706315104 / 25891569508530625) * (r - (102 / 125)) ^ 0 * ((227 / 250) - r) ^ 10 + (1055662964865626787159104 / 5178313901706125) * (r - (102 / 125)) ^ 1 * ((227 / 250) - r) ^ 9 + (7029941732931761165031984 / 5178313901706125) * (r - (102 / 125)) ^ 2 * ((227 / 250) - r) ^ 8 + (21253134366266467622766312 / 5178313901706125) * (r - (102 / 125)) ^ 3 * ((227 / 250) - r) ^ 7 + (73458060184098588521493921 / 10356627803412250) * (r - (102 / 125)) ^ 4 * ((227 / 250) - r) ^ 6 + (197068836109140522076495194 / 25891569508530625) * (r - (102 / 125)) ^ 5 * ((227 / 250) - r) ^ 5 + (215613720378303432943193421 / 41426511213649000) * (r - (102 / 125)) ^ 6 * ((227 / 250) - r) ^ 4 + (23291430491784011935968039 / 10356627803412250) * (r - (102 / 125)) ^ 7 * ((227 / 250) - r) ^ 3 + (98061370270753010799534867 / 165706044854596000) * (r - (102 / 125)) ^ 8 * ((227 / 250) - r) ^ 2 + (3668001363032963576212847 / 41426511213649000) * (r - (102 / 125)) ^ 9 * ((227 / 250) - r) ^ 1 + (21041391221833539029953763 / 3314120897091920000) * (r - (102 / 125)) ^ 10 * ((227 / 250) - r) ^ 0 := by positivity
  nlinarith only [key]

theorem guess_hi_up {r : ℝ} (h0 : (227 / 250 : ℝ) ≤ r) (h1 : r ≤ (1 / 1 : ℝ)) : (r - 1 + (3 / 2 * (1 - r ^ 2)) * (3 - 2 * (3 / 2 * (1 - r ^ 2))) * (1184 / 10000 + 1291 / 10000 * ((3 / 2 * (1 - r ^ 2)) ^ 2 * (3 - 2 * (3 / 2 * (1 - r ^ 2)))))) ≤ 3 / 4000 := by
  have a : 0 ≤ r - 227 / 250 := sub_nonneg.mpr h0
  have b : 0 ≤ 1 / 1 - r := sub_nonneg.mpr h1
  have key : 0 ≤ (93399526746916460970046237 / 3314120897091920000) * (r - (227 / 250)) ^ 0 * (1 / 1 - r) ^ 10 + (406808585717386522199181 / 1325648358836768) * (r - (227 / 250)) ^ 1 * (1 / 1 - r) ^ 9 + (936617089203224061672825 / 662824179418384) * (r - (227 / 250)) ^ 2 * (1 / 1 - r) ^ 8 + (296554238903986582321875 / 82853022427298) * (r - (227 / 250)) ^ 3 * (1 / 1 - r) ^ 7 + (1796431311117028536328125 / 331412089709192) * (r - (227 / 250)) ^ 4 * (1 / 1 - r) ^ 6 + (410400144930541552734375 / 82853022427298) * (r - (227 / 250)) ^ 5 * (1 / 1 - r) ^ 5 + (106499569447741699218750 / 41426511213649) * (r - (227 / 250)) ^ 6 * (1 / 1 - r) ^ 4 + (25777409820556640625000 / 41426511213649) * (r - (227 / 250)) ^ 7 * (1 / 1 - r) ^ 3 + (1889511108398437500000 / 41426511213649) * (r - (227 / 250)) ^ 8 * (1 / 1 - r) ^ 2 + (1396942138671875000000 / 41426511213649) * (r - (227 / 250)) ^ 9 * (1 / 1 - r) ^ 1 + (715255737304687500000 / 41426511213649) * (r - (227 / 250)) ^ 10 * (1 / 1 - r) ^ 0 := by positivity
  nlinarith only [key]

theorem guess_hi_dn {r : ℝ} (h0 : (227 / 250 : ℝ) ≤ r) (h1 : r ≤ (1 / 1 : ℝ)) : -(r - 1 + (3 / 2 * (1 - r ^ 2)) * (3 - 2 * (3 / 2 * (1 - r ^ 2))) * (1184 / 10000 + 1291 / 10000 * ((3 / 2 * (1 - r ^ 2)) ^ 2 * (3 - 2 * (3 / 2 * (1 - r ^ 2)))))) ≤ 3 / 4000 := by
  have a : 0 ≤ r - 227 / 250 := sub_nonneg.mpr h0
  have b : 0 ≤ 1 / 1 - r := sub_nonneg.mpr h1
  have key : 0 ≤ (21041391221833539029953763 / 3314120897091920000) * (r - (227 / 250)) ^ 0 * (1 / 1 - r) ^ 10 + (50955086157613477800819 / 1325648358836768) * (r - (227 / 250)) ^ 1 * (1 / 1 - r) ^ 9 + (93351172515525938327175 / 662824179418384) * (r - (227 / 250)) ^ 2 * (1 / 1 - r) ^ 8 + (46768515002263417678125 / 82853022427298) * (r - (227 / 250)) ^ 3 * (1 / 1 - r) ^ 7 + (606827966226721463671875 / 331412089709192) * (r - (227 / 250)) ^ 4 * (1 / 1 - r) ^ 6 + (310577638272583447265625 / 82853022427298) * (r - (227 / 250)) ^ 5 * (1 / 1 - r) ^ 5 + (193907840220227050781250 / 41426511213649) * (r - (227 / 250)) ^ 6 * (1 / 1 - r) ^ 4 + (145883967132568359375000 / 41426511213649) * (r - (227 / 250)) ^ 7 * (1 / 1 - r) ^ 3 + (62483505249023437500000 / 41426511213649) * (r - (227 / 250)) ^ 8 * (1 / 1 - r) ^ 2 + (12908172607421875000000 / 41426511213649) * (r - (227 / 250)) ^ 9 * (1 / 1 - r) ^ 1 + (715255737304687500000 / 41426511213649) * (r - (227 / 250)) ^ 10 * (1 / 1 - r) ^ 0 := by positivity
  nlinarith only [key]

/-- the initial guess is accurate to 0.075 per cent -/
theorem guess_acc {s : ℝ} (h0 : 0 < s) (h1 : s ≤ 1 / 2) :
    |1 / √3 * √(s * s * (3 - 2 * s)) + s * s * (3 - 2 * s) * (0.1184 + 0.1291 * (s * s * (3 - 2 * s))) - s| ≤ 3 / 4000 * s := by
  set r := √(1 - 2 / 3 * s) with hr
  have p0 : 0 ≤ 1 - 2 / 3 * s := by linarith
  have r0 : 0 ≤ r := sqrt_nonneg _
  have rsq : r ^ 2 = 1 - 2 / 3 * s := sq_sqrt p0
  have es : s = 3 / 2 * (1 - r ^ 2) := by rw [rsq]; ring
  have e1 : 1 / √3 * √(s * s * (3 - 2 * s)) = s * r := by
    have : s * s * (3 - 2 * s) = s ^ 2 * (3 * (1 - 2 / 3 * s)) := by ring
    rw [this, sqrt_mul (by positivity), sqrt_sq h0.le, sqrt_mul (by norm_num)]
    have : √(3:ℝ) ≠ 0 := by positivity
    rw [hr]; field_simp
  have rl : 102 / 125 ≤ r := by
    rw [hr]; apply le_sqrt_of_sq_le; norm_num; linarith
  have ru : r ≤ 1 := by
    rw [hr]; exact sqrt_le_one.mpr (by linarith)
  have e2 : 1 / √3 * √(s * s * (3 - 2 * s)) + s * s * (3 - 2 * s) * (0.1184 + 0.1291 * (s * s * (3 - 2 * s))) - s =
      s * (r - 1 + s * (3 - 2 * s) * (1184 / 10000 + 1291 / 10000 * (s ^ 2 * (3 - 2 * s)))) := by
    rw [e1]; norm_num; ring
  rw [e2, abs_mul, abs_of_pos h0, mul_comm]
  refine mul_le_mul_of_nonneg_right ?_ h0.le
  rw [es, abs_le]
  rcases le_total r (227 / 250) with h | h
  · constructor
    · have := guess_lo_dn rl h; linarith
    · exact guess_lo_up rl h
  · constructor
    · have := guess_hi_dn h (by norm_num; exact ru); linarith
    · exact guess_hi_up h (by norm_num; exact ru)

/-- quadratic convergence -/
theorem cubStep_acc {s g δ : ℝ} (h0 : 0 < s) (h1 : s ≤ 1 / 2) (d0 : 0 ≤ δ) (d1 : δ ≤ 1 / 2) (hg : |g - s| ≤ δ * s) :
    |cubStep (s * s * (3 - 2 * s)) g - s| ≤ δ ^ 2 / (2 * (1 - δ) ^ 2) * s := by
  obtain ⟨a, b⟩ := abs_le.mp hg
  have gl : (1 - δ) * s ≤ g := by linarith
  have g0 : 0 < g := lt_of_lt_of_le (mul_pos (by linarith) h0) gl
  have gu : (1 - δ) * (1 - s) ≤ 1 - g := by nlinarith
  have g1 : 0 < 1 - g := lt_of_lt_of_le (mul_pos (by linarith) (by linarith)) gu
  have e : cubStep (s * s * (3 - 2 * s)) g - s = (g - s) ^ 2 * (3 - 6 * s - 4 * (g - s)) / (6 * (g * (1 - g))) := by
    simp only [cubStep]
    field_simp
    ring
  have num : |3 - 6 * s - 4 * (g - s)| ≤ 3 * (1 - s) := by
    rw [abs_le]; constructor <;> nlinarith
  have sq : (g - s) ^ 2 ≤ (δ * s) ^ 2 := by
    rw [← sq_abs]; exact pow_le_pow_left₀ (abs_nonneg _) hg 2
  rw [e, abs_div, abs_mul, abs_of_nonneg (sq_nonneg (g - s)), abs_of_pos (show 0 < 6 * (g * (1 - g)) by positivity), div_le_iff₀ (by positivity)]
  have k1 : 0 < 1 - δ := by linarith
  have k2 : 0 < 1 - s := by linarith
  calc (g - s) ^ 2 * |3 - 6 * s - 4 * (g - s)| ≤ (δ * s) ^ 2 * (3 * (1 - s)) := mul_le_mul sq num (abs_nonneg _) (by positivity)
    _ = δ ^ 2 / (2 * (1 - δ) ^ 2) * s * (6 * (((1 - δ) * s) * ((1 - δ) * (1 - s)))) := by field_simp; ring
    _ ≤ δ ^ 2 / (2 * (1 - δ) ^ 2) * s * (6 * (g * (1 - g))) := by gcongr

/-- the two iterations together -/
theorem cub_two {s : ℝ} (h0 : 0 < s) (h1 : s ≤ 1 / 2) :
    |cubStep (s * s * (3 - 2 * s)) (cubStep (s * s * (3 - 2 * s)) (1 / √3 * √(s * s * (3 - 2 * s)) + s * s * (3 - 2 * s) * (0.1184 + 0.1291 * (s * s * (3 - 2 * s))))) - s| ≤ 1e-13 * s := by
  have a := cubStep_acc h0 h1 (by norm_num) (by norm_num) (guess_acc h0 h1)
  have a' := a.trans (mul_le_mul_of_nonneg_right (show ((3:ℝ) / 4000) ^ 2 / (2 * (1 - 3 / 4000) ^ 2) ≤ 3e-7 by norm_num) h0.le)
  have b := cubStep_acc h0 h1 (by norm_num) (by norm_num) a'
  exact b.trans (mul_le_mul_of_nonneg_right (by norm_num) h0.le)

/-- C17 (cubic, inverse): `scale` inverts `unscale` to a relative accuracy of 1e-13 (of the distance to the nearest end of the unit interval), and exactly at the ends and in the middle. -/
theorem C17_cub_scale (ul ur : ℝ) (h : ul < ur) (s : ℝ) (h0 : 0 ≤ s) (h1 : s ≤ 1) :
    |scaleCub ul ur (unscaleCub ul ur s) - s| ≤ 1e-13 * min s (1 - s) ∧ (s = 0 ∨ s = 1 / 2 ∨ s = 1 → scaleCub ul ur (unscaleCub ul ur s) = s) := by
  have hd : 0 < ur - ul := by linarith
  have eu : unscaleCub ul ur s = ul + (ur - ul) * (s ^ 2 * (3 - 2 * s)) := by simp only [unscaleCub]; ring
  have bij := (C17_cub ul ur h)
  have key : ∀ t, 0 ≤ t → t ≤ 1 → unscaleCub ul ur s = unscaleCub ul ur t → s = t := fun t t0 t1 e => bij.mono.injOn ⟨h0, h1⟩ ⟨t0, t1⟩ e
  by_cases c0 : s = 0
  · have this' : scaleCub ul ur (unscaleCub ul ur s) = s := by rw [c0, bij.at0, scaleCub, if_pos rfl]
    have : 0 ≤ min s (1 - s) := le_min h0 (by linarith)
    rw [this']; simp only [sub_self, abs_zero]
    exact ⟨by positivity, fun _ => trivial⟩
  by_cases c1 : s = 1
  · have this' : scaleCub ul ur (unscaleCub ul ur s) = s := by rw [c1, bij.at1, scaleCub, if_neg h.ne', if_pos rfl]
    have : 0 ≤ min s (1 - s) := le_min h0 (by linarith)
    rw [this']; simp only [sub_self, abs_zero]
    exact ⟨by positivity, fun _ => trivial⟩
  have n0 : unscaleCub ul ur s ≠ ul := fun e => c0 (key 0 le_rfl zero_le_one (e.trans bij.at0.symm))
  have n1 : unscaleCub ul ur s ≠ ur := fun e => c1 (key 1 zero_le_one le_rfl (e.trans bij.at1.symm))
  have eh : unscaleCub ul ur (1 / 2) = 0.5 * (ul + ur) := by simp only [unscaleCub]; norm_num; ring
  by_cases ch : s = 1 / 2
  · have this' : scaleCub ul ur (unscaleCub ul ur s) = s := by
      rw [scaleCub, if_neg n0, if_neg n1]
      simp only
      rw [if_pos (by rw [ch, eh]), ch]; norm_num
    have : 0 ≤ min s (1 - s) := le_min h0 (by linarith)
    rw [this']; simp only [sub_self, abs_zero]
    exact ⟨by positivity, fun _ => trivial⟩
  have nh : unscaleCub ul ur s ≠ 0.5 * (ul + ur) := by rw [← eh]; exact fun e => ch (key (1 / 2) (by norm_num) (by norm_num) e)
  refine ⟨?_, fun q => absurd q (by tauto)⟩
  have s0 : 0 < s := lt_of_le_of_ne h0 (Ne.symm c0)
  have s1 : s < 1 := lt_of_le_of_ne h1 c1
  rw [scaleCub, if_neg n0, if_neg n1]
  simp only
  rw [if_neg nh]
  rcases lt_or_gt_of_ne ch with hl | hl
  · have lt : unscaleCub ul ur s < 0.5 * (ul + ur) := by rw [← eh]; exact bij.mono ⟨h0, h1⟩ ⟨by norm_num, by norm_num⟩ hl
    rw [if_pos lt, if_pos lt]
    have ew : (unscaleCub ul ur s - ul) / (ur - ul) = s * s * (3 - 2 * s) := by rw [eu]; field_simp; ring
    rw [ew, min_eq_left (by linarith)]
    exact cub_two s0 hl.le
  · have lt : ¬ unscaleCub ul ur s < 0.5 * (ul + ur) := by
      rw [← eh, not_lt]; exact (bij.mono ⟨by norm_num, by norm_num⟩ ⟨h0, h1⟩ hl).le
    rw [if_neg lt, if_neg lt]
    have ew : (ur - unscaleCub ul ur s) / (ur - ul) = (1 - s) * (1 - s) * (3 - 2 * (1 - s)) := by rw [eu]; field_simp; ring
    rw [ew, min_eq_right (by linarith)]
    have := cub_two (s := 1 - s) (by linarith) (by linarith)
    rw [abs_sub_comm] at this
    refine le_trans (le_of_eq ?_) this
    congr 1; ring

/-- the exact inverse exists for any u in the interval, and `scale` approximates it -/
theorem C17_cub_scale' (ul ur : ℝ) (h : ul < ur) (u : ℝ) (h0 : ul ≤ u) (h1 : u ≤ ur) :
    ∃ s, 0 ≤ s ∧ s ≤ 1 ∧ unscaleCub ul ur s = u ∧ |scaleCub ul ur u - s| ≤ 1e-13 * min s (1 - s) := by
  obtain ⟨s, ⟨a, b⟩, e⟩ := (C17_cub ul ur h).bij.surjOn ⟨h0, h1⟩
  exact ⟨s, a, b, e, by rw [← e]; exact (C17_cub_scale ul ur h s a b).1⟩

example : |scaleCub 1 3 (unscaleCub 1 3 (1 / 3)) - 1 / 3| ≤ 1e-13 * (1 / 3) := by
  have := (C17_cub_scale 1 3 (by norm_num) (1 / 3) (by norm_num) (by norm_num)).1
  rwa [min_eq_left (by norm_num)] at this

end Verif.Scaling
