import Verif.Ode.Series
import Mathlib.Data.Rat.Lemmas
import Mathlib.Algebra.Order.Field.Rat
import Mathlib.Tactic.NormNum
import Mathlib.Tactic.IntervalCases
import Mathlib.Data.List.GetD
import Mathlib.Tactic.Linarith

/-! The coefficients of the Runge-Kutta method DOP853 (/repo/src/math_ode.cpp:87-214) and the conditions of its order; C83.
The decimal literals of the code are taken as exact rational numbers (without the rounding to double precision). -/
namespace Verif.Ode

/-! ## Model: the coefficients -/

/-- math_ode.cpp:88-98, fractions of the time step c1=0 (not in the code) and c2..c12 -/
def cs : List ℚ :=
  [0, 0.05260015195876773187856, 0.07890022793815159781784, 0.11835034190722739672676, 0.28164965809277260327324, 0.33333333333333333333333,
   0.25000000000000000000000, 0.30769230769230769230769, 0.65128205128205128205128, 0.60000000000000000000000, 0.85714285714285714285714,
   1.00000000000000000000000]

/-- math_ode.cpp:100-149: the coefficients a_ij of the stages i=2..12 (rows), j=1..i-1; coefficients not present in the code are zero. -/
def as : List (List ℚ) :=
  [[],
   [0.05260015195876773187856],
   [0.01972505698453789945446, 0.05917517095361369836338],
   [0.02958758547680684918169, 0, 0.08876275643042054754507],
   [0.24136513415926668550237, 0, -0.88454947932828608534486, 0.92483400326179200311574],
   [0.03703703703703703703704, 0, 0, 0.17082860872947387127960, 0.12546768756682242501669],
   [0.03710937500000000000000, 0, 0, 0.17025221101954403931498, 0.06021653898045596068502, -0.01757812500000000000000],
   [0.03709200011850479271088, 0, 0, 0.17038392571223999381021, 0.10726203044637328465181, -0.01531943774862440175279, 0.00827378916381402288758],
   [0.62411095871607571711443, 0, 0, -3.36089262944694129406857, -0.86821934684172600681819, 27.5920996994467083049416, 20.1540675504778934086187,
    -43.4898841810699588477366],
   [0.47766253643826436589043, 0, 0, -2.48811461997166764192642, -0.59029082683684299637145, 21.2300514481811942347289, 15.2792336328824235832597,
    -33.2882109689848629194453, -0.02033120170850862613582],
   [-0.93714243008598732571704, 0, 0, 5.18637242884406370830024, 1.09143734899672957818500, -8.14978701074692612513997, -18.5200656599969598641566,
    22.7394870993505042818970, 2.49360555267965238987089, -3.04676447189821950038237],
   [2.27331014751653820792360, 0, 0, -10.5344954667372501984067, -2.00087205822486249909676, -17.9589318631187989172766, 27.9488845294199600508500,
    -2.85899827713502369474066, -8.87285693353062954433549, 12.3605671757943030647266, 0.64339274601576353035597]]

/-- math_ode.cpp:151-158: the coefficients of the final stage -/
def bs : List ℚ :=
  [0.05429373411656876223805, 0, 0, 0, 0, 4.45031289275240888144114, 1.89151789931450038304282, -5.80120396001058478146721, 0.31116436695781989440892,
   -0.15216094966251607855618, 0.20136540080403034837478, 0.04471061572777259051769]

/-- math_ode.cpp:160-162, 280: `k13 - bhh1*k1 - bhh2*k9 - bhh3*k12`: the coefficients subtracted from those of the final stage -/
def bhh : List ℚ := [0.24409448818897637795276, 0, 0, 0, 0, 0, 0, 0, 0.73384668828161185734136, 0, 0, 0.02205882352941176470588]

/-- math_ode.cpp:163-170: the coefficients of the error estimate -/
def er : List ℚ :=
  [0.01312004499419488073250, 0, 0, 0, 0, -1.22515644637620444072057, -0.49575894965725019152141, 1.66437718245498653696153, -0.35032884874997368168865,
   0.33417911871301747902973, 0.08192320648511571246571, -0.02235530786388629525884]

/-- math_ode.cpp:172-207: the coefficients of the dense output (stages 1..12 and 13, the derivative at the end of the step) -/
def d4 : List ℚ :=
  [-5.40685903845352664250302, 0, 0, 0, 0, 367.268892700041893590281, 154.609958204083905482676, -505.920283865412564024766, 15.5975154819608130688200,
   -26.1936204184402805956691, -0.74003512364122230844721, 1.11776539319431476294221, -0.33333333333333333333333]
def d5 : List ℚ :=
  [6.51987095363079615048119, 0, 0, 0, 0, -1066.34956011730205278592, -351.864047514639508625601, 1363.51955696662884408368, -112.727669432657582669864,
   159.796191868560289612921, -2.13865100308788816220259, -3.75569172113289760348584, 7.00000000000000000000000]
def d6 : List ℚ :=
  [10.4698004763293477204238, 0, 0, 0, 0, -1380.01473607038123167155, -531.219827862514074379012, 1866.98964341870892451324, -53.3302605020547902574560,
   82.4147560258671369782481, 7.38443654502992069572676, 0.41729908012587751149843, -3.11111111111111111111111]
def d7 : List ℚ :=
  [-16.6338582677165354330709, 0, 0, 0, 0, 4516.16568914956011730205, 1393.85185384057776465219, -5687.52042419481539670071, 473.965563750151263163661,
   -661.810776942355889724311, -18.0180473354013232598119, 0, 0]

/-- The rows of coefficients of all 13 stages (the last one is the derivative at the end of the step, its argument being the result of the step) -/
def rows : List (List ℚ) := as ++ [bs]

/-- One element of a list of coefficients, 0 if absent -/
def coef (l : List ℚ) (j : ℕ) : ℚ := l.getD j 0

/-- The coefficient a_ij (numbered from 0) -/
def acoef (i j : ℕ) : ℚ := coef (rows.getD i []) j

/-! The weights of the stages in the interpolated solution, math_ode.cpp:362-378 and 395-400: coefficients of powers of theta=(t-timePrev)/(time-timePrev)
obtained by expanding r1 + p (r2 + q (r3 + p (r4 + q (r5 + p (r6 + q (r7 + p r8)))))), with r2 = b, r3 = e1 - b, r4 = 2 b - e1 - e13, r5..r8 = d4..d7. -/

def unitL (k : ℕ) : List ℚ := (List.range 13).map fun i => if i = k then 1 else 0

def addL (c : ℚ) (l m : List ℚ) : List ℚ := (List.range 13).map fun i => coef l i + c * coef m i

def r2 : List ℚ := addL 0 bs []
def r3 : List ℚ := addL (-1) (unitL 0) bs
def r4 : List ℚ := addL (-1) (addL (-1) (addL 1 bs bs) (unitL 0)) (unitL 12)

/-- The coefficients of the powers 1..7 of theta -/
def denseW : List (List ℚ) :=
  [addL 1 r2 r3,
   addL 1 (addL (-1) r4 r3) d4,
   addL 1 (addL 1 (addL (-2) (addL (-1) [] r4) d4) d5) d6,
   addL 1 (addL (-3) (addL (-2) d4 d5) d6) d7,
   addL (-3) (addL 3 d5 d6) d7,
   addL 3 (addL (-1) [] d6) d7,
   addL (-1) [] d7]

/-! ## Tools: the weights of all trees of a given order, scaled to integers -/

/-- The scale of decimal fractions -/
def scale : ℕ := 10 ^ 23

def toInt (x : ℚ) : ℤ := (x * scale).num

/-- The same coefficients multiplied by the scale -/
def irows : List (List ℤ) :=
  [[],
   [5260015195876773187856],
   [1972505698453789945446, 5917517095361369836338],
   [2958758547680684918169, 0, 8876275643042054754507],
   [24136513415926668550237, 0, -88454947932828608534486, 92483400326179200311574],
   [3703703703703703703704, 0, 0, 17082860872947387127960, 12546768756682242501669],
   [3710937500000000000000, 0, 0, 17025221101954403931498, 6021653898045596068502, -1757812500000000000000],
   [3709200011850479271088, 0, 0, 17038392571223999381021, 10726203044637328465181, -1531943774862440175279, 827378916381402288758],
   [62411095871607571711443, 0, 0, -336089262944694129406857, -86821934684172600681819, 2759209969944670830494160, 2015406755047789340861870, -4348988418106995884773660],
   [47766253643826436589043, 0, 0, -248811461997166764192642, -59029082683684299637145, 2123005144818119423472890, 1527923363288242358325970, -3328821096898486291944530, -2033120170850862613582],
   [-93714243008598732571704, 0, 0, 518637242884406370830024, 109143734899672957818500, -814978701074692612513997, -1852006565999695986415660, 2273948709935050428189700, 249360555267965238987089, -304676447189821950038237],
   [227331014751653820792360, 0, 0, -1053449546673725019840670, -200087205822486249909676, -1795893186311879891727660, 2794888452941996005085000, -285899827713502369474066, -887285693353062954433549, 1236056717579430306472660, 64339274601576353035597],
   [5429373411656876223805, 0, 0, 0, 0, 445031289275240888144114, 189151789931450038304282, -580120396001058478146721, 31116436695781989440892, -15216094966251607855618, 20136540080403034837478, 4471061572777259051769]]

theorem irows_eq : irows = rows.map (List.map toInt) := by decide +kernel

def idot : List ℤ → List ℤ → ℤ
  | a :: l, b :: m => a * b + idot l m
  | _, _ => 0

/-- weights of the tree composed of two others -/
def iconv (A : List (List ℤ)) (v w : List ℤ) : List ℤ := List.zipWith (fun x r => x * idot r w) v A

/-- (weights of 13 stages, product of densities of children) for all trees with n nodes -/
def itab (A : List (List ℤ)) : ℕ → List (List (List ℤ × ℕ))
  | 0 => []
  | 1 => [[(List.replicate 13 1, 1)]]
  | n + 1 => let T := itab A n
    T ++ [(List.range n).flatMap fun k => (T.getD k []).flatMap fun x => (T.getD (n - 1 - k) []).map fun y => (iconv A x.1 y.1, x.2 * ((n - k) * y.2))]

theorem idot_eq (l m : List ℤ) (n : ℕ) (h : l.length ≤ n) : idot l m = ∑ j ∈ Finset.range n, l.getD j 0 * m.getD j 0 := by
  induction l generalizing m n with
  | nil => rw [idot]; · simp
           · intro a b c d h; simp at h
  | cons a l ih =>
    obtain ⟨n, rfl⟩ : ∃ k, n = k + 1 := ⟨n - 1, by simp at h; omega⟩
    rw [Finset.sum_range_succ']
    cases m with
    | nil => simp [idot]
    | cons b m => rw [idot, ih m n (by simpa using h)]; simp [add_comm]

theorem itab_length (A : List (List ℤ)) (n : ℕ) : (itab A n).length = n := by
  induction n with
  | zero => rfl
  | succ n ih => cases n with
    | zero => rfl
    | succ n => rw [itab, List.length_append, ih]; · rfl
                · omega

theorem itab_stable (A : List (List ℤ)) (n k : ℕ) (h : k < n) : (itab A (n + 1)).getD k [] = (itab A n).getD k [] := by
  obtain ⟨m, rfl⟩ : ∃ m, n = m + 1 := ⟨n - 1, by omega⟩
  rw [itab]
  · exact List.getD_append _ _ _ _ (by rw [itab_length]; exact h)
  · omega

theorem itab_last (A : List (List ℤ)) (n : ℕ) (h : 0 < n) : (itab A (n + 1)).getD n [] =
    (List.range n).flatMap fun k => ((itab A n).getD k []).flatMap fun x => ((itab A n).getD (n - 1 - k) []).map fun y => (iconv A x.1 y.1, x.2 * ((n - k) * y.2)) := by
  obtain ⟨m, rfl⟩ : ∃ m, n = m + 1 := ⟨n - 1, by omega⟩
  rw [itab]
  · rw [List.getD_append_right _ _ _ _ (by rw [itab_length]), itab_length]; simp
  · omega

/-- The coefficients as real numbers -/
noncomputable def areal (i j : ℕ) : ℝ := acoef i j

theorem rows_lengths : rows.map List.length = List.range 12 ++ [12] := by decide +kernel

theorem rows_integral : ∀ r ∈ rows, ∀ x ∈ r, (x * scale).den = 1 := by decide +kernel

theorem row_length (i : ℕ) (hi : i < 13) : (rows.getD i []).length ≤ i := by
  interval_cases i <;> decide +kernel

theorem toInt_cast {x : ℚ} (h : (x * scale).den = 1) : ((toInt x : ℤ) : ℝ) = (x : ℝ) * scale := by
  have : ((toInt x : ℤ) : ℚ) = x * scale := by
    rw [toInt]; exact Rat.coe_int_num_of_den_eq_one h
  exact_mod_cast congrArg (fun y : ℚ => (y : ℝ)) this

/-- x represents the weights of the tree t. -/
structure Rep (t : Tree) (x : List ℤ × ℕ) : Prop where
  len : x.1.length = 13
  pd : x.2 = t.prodDensity
  val : ∀ i < 13, ((x.1.getD i 0 : ℤ) : ℝ) = stageW' areal i t * (scale : ℝ) ^ (t.order - 1)

theorem irows_getD (i : ℕ) : irows.getD i [] = (rows.getD i []).map toInt := by
  rw [irows_eq]
  simp only [List.getD_eq_getElem?_getD, List.getElem?_map]
  cases rows[i]? <;> rfl

theorem map_toInt_getD (l : List ℚ) (j : ℕ) : (l.map toInt).getD j 0 = toInt (coef l j) := by
  rw [coef]
  simp only [List.getD_eq_getElem?_getD, List.getElem?_map]
  cases l[j]? with
  | none => simp [toInt]
  | some x => rfl

theorem coef_integral {l : List ℚ} (h : ∀ x ∈ l, (x * scale).den = 1) (j : ℕ) : (coef l j * scale).den = 1 := by
  rw [coef, List.getD_eq_getElem?_getD]
  rcases e : l[j]? with _ | x
  · simp
  · exact h x (List.mem_of_getElem? e)

theorem rows_integral' (i : ℕ) : ∀ x ∈ rows.getD i [], (x * scale).den = 1 := by
  intro x hx
  rw [List.getD_eq_getElem?_getD] at hx
  rcases e : rows[i]? with _ | r
  · rw [e] at hx; simp at hx
  · rw [e] at hx; exact rows_integral r (List.mem_of_getElem? e) x hx

/-- A combination of weights with given integer coefficients -/
theorem idot_rep {t : Tree} {x : List ℤ × ℕ} (h : Rep t x) {l : List ℚ} (hl : ∀ y ∈ l, (y * scale).den = 1) {n : ℕ} (hn : l.length ≤ n) (hn' : n ≤ 13) :
    ((idot (l.map toInt) x.1 : ℤ) : ℝ) = (∑ j ∈ Finset.range n, (coef l j : ℝ) * stageW' areal j t) * (scale : ℝ) ^ t.order := by
  rw [idot_eq _ _ n (by simpa using hn)]
  push_cast
  rw [Finset.sum_mul]
  refine Finset.sum_congr rfl fun j hj => ?_
  rw [map_toInt_getD, toInt_cast (coef_integral hl j), h.val j (lt_of_lt_of_le (Finset.mem_range.1 hj) hn')]
  obtain ⟨m, hm⟩ : ∃ m, t.order = m + 1 := ⟨t.order - 1, by have := t.order_pos; omega⟩
  rw [hm, Nat.add_sub_cancel, pow_succ]
  ring

theorem rep_graft {t u : Tree} {x y : List ℤ × ℕ} (hx : Rep t x) (hy : Rep u y) : Rep (.graft t u) (iconv irows x.1 y.1, x.2 * (u.order * y.2)) := by
  refine ⟨?_, ?_, fun i hi => ?_⟩
  · simp only [iconv, List.length_zipWith, hx.len]; decide +kernel
  · simp only [hx.pd, hy.pd, Tree.prodDensity]
  · have hlen : irows.length = 13 := by decide +kernel
    have h1 : (iconv irows x.1 y.1).getD i 0 = x.1.getD i 0 * idot (irows.getD i []) y.1 := by
      have a1 : i < x.1.length := by rw [hx.len]; exact hi
      have a2 : i < irows.length := by rw [hlen]; exact hi
      simp only [iconv, List.getD_eq_getElem?_getD, List.getElem?_zipWith, List.getElem?_eq_getElem a1, List.getElem?_eq_getElem a2]
      rfl
    simp only [h1]
    push_cast
    rw [irows_getD, idot_rep hy (rows_integral' i) (row_length i hi) (by omega), hx.val i hi, stageW']
    have e : (scale : ℝ) ^ ((Tree.graft t u).order - 1) = (scale : ℝ) ^ (t.order - 1) * (scale : ℝ) ^ u.order := by
      rw [← pow_add, Tree.order]
      congr 1
      have := t.order_pos
      omega
    rw [e]
    simp only [areal, acoef]
    ring

theorem rep_exists (N : ℕ) (t : Tree) (h : t.order ≤ N) : ∃ x ∈ (itab irows N).getD (t.order - 1) [], Rep t x := by
  induction N generalizing t with
  | zero => have := t.order_pos; omega
  | succ N ih =>
    rcases Nat.lt_or_ge N t.order with h1 | h1
    · cases t with
      | leaf =>
        have hN : N = 0 := by rw [Tree.order] at h1; omega
        subst hN
        refine ⟨(List.replicate 13 1, 1), by simp [Tree.order, itab], by simp, rfl, fun i hi => ?_⟩
        rw [stageW']
        interval_cases i <;> simp [Tree.order]
      | graft t u =>
        rw [Tree.order] at h h1 ⊢
        have p1 := t.order_pos
        have p2 := u.order_pos
        obtain ⟨x, hx, rx⟩ := ih t (by omega)
        obtain ⟨y, hy, ry⟩ := ih u (by omega)
        refine ⟨_, ?_, rep_graft rx ry⟩
        rw [show t.order + u.order - 1 = N by omega, itab_last _ _ (by omega)]
        refine List.mem_flatMap.2 ⟨t.order - 1, List.mem_range.2 (by omega), List.mem_flatMap.2 ⟨x, hx, List.mem_map.2 ⟨y, ?_, ?_⟩⟩⟩
        · rw [show N - 1 - (t.order - 1) = u.order - 1 by omega]; exact hy
        · rw [show N - (t.order - 1) = u.order by omega]
    · obtain ⟨x, hx, rx⟩ := ih t h1
      exact ⟨x, by rw [itab_stable _ _ _ (by have := t.order_pos; omega)]; exact hx, rx⟩

/-- The check of one condition: the combination of weights differs from c/density by no more than 10^-tol -/
def chk (tol : ℕ) (c : ℕ) (B : List ℤ) (n : ℕ) (x : List ℤ × ℕ) : Bool :=
  decide ((idot B x.1 * ((n * x.2 : ℕ) : ℤ) - (c : ℤ) * (scale : ℤ) ^ n).natAbs * 10 ^ tol ≤ n * x.2 * scale ^ n)

def chkAll (tol : ℕ) (c : ℕ → ℕ) (B : List ℤ) (L : List (List (List ℤ × ℕ))) : ℕ → Bool
  | 0 => true
  | n + 1 => chkAll tol c B L n && (L.getD n []).all (chk tol (c (n + 1)) B (n + 1))

theorem chkAll_spec {tol : ℕ} {c : ℕ → ℕ} {B : List ℤ} {L : List (List (List ℤ × ℕ))} {N : ℕ} (h : chkAll tol c B L N = true) (n : ℕ) (h0 : 0 < n) (hn : n ≤ N) :
    ∀ x ∈ L.getD (n - 1) [], chk tol (c n) B n x = true := by
  induction N with
  | zero => omega
  | succ N ih =>
    rw [chkAll, Bool.and_eq_true] at h
    rcases Nat.lt_or_ge N n with h1 | h1
    · obtain rfl : n = N + 1 := by omega
      exact List.all_eq_true.1 h.2
    · exact ih h.1 h1

theorem chk_spec {tol : ℕ} {c : ℕ → ℕ} {l : List ℚ} {N : ℕ} (h : chkAll tol c (l.map toInt) (itab irows N) N = true) (hl : ∀ y ∈ l, (y * scale).den = 1)
    (hlen : l.length ≤ 13) (t : Tree) (ht : t.order ≤ N) :
    |(∑ j ∈ Finset.range 13, (coef l j : ℝ) * stageW' areal j t) - (c t.order : ℝ) / t.density| ≤ 1 / 10 ^ tol := by
  obtain ⟨x, hx, rx⟩ := rep_exists N t ht
  have h1 := chkAll_spec h t.order t.order_pos ht x hx
  rw [chk, decide_eq_true_eq, rx.pd, ← Tree.density] at h1
  have h2 : ((((idot (l.map toInt) x.1 * (t.density : ℤ) - (c t.order : ℤ) * (scale : ℤ) ^ t.order).natAbs * 10 ^ tol : ℕ)) : ℝ) ≤ ((t.density * scale ^ t.order : ℕ) : ℝ) := by
    exact_mod_cast h1
  push_cast at h2
  rw [Nat.cast_natAbs] at h2
  push_cast at h2
  rw [idot_rep rx hl hlen le_rfl] at h2
  have hd : (0 : ℝ) < t.density := by exact_mod_cast t.density_pos
  have hs : (0 : ℝ) < (scale : ℝ) ^ t.order := by
    have : (0 : ℝ) < scale := by norm_num [scale]
    positivity
  have h10 : (0 : ℝ) < 10 ^ tol := by positivity
  set X := ∑ j ∈ Finset.range 13, (coef l j : ℝ) * stageW' areal j t
  have e : X * (scale : ℝ) ^ t.order * (t.density : ℝ) - (c t.order : ℝ) * (scale : ℝ) ^ t.order = (X - (c t.order : ℝ) / t.density) * ((t.density : ℝ) * (scale : ℝ) ^ t.order) := by
    field_simp
  rw [e, abs_mul, abs_of_pos (mul_pos hd hs)] at h2
  rw [le_div_iff₀ h10]
  have h3 := mul_pos hd hs
  nlinarith

/-! ## The conditions -/

/-- The result of the step agrees with the exact solution up to the order 8. -/
theorem order8 (t : Tree) (ht : t.order ≤ 8) : |(∑ j ∈ Finset.range 13, (coef bs j : ℝ) * stageW' areal j t) - exactW t| ≤ 1 / 10 ^ 22 := by
  have := chk_spec (tol := 22) (c := fun _ => 1) (l := bs) (N := 8) (by decide +kernel) (by decide +kernel) (by decide +kernel) t ht
  simpa [exactW] using this

/-- The embedded formula for the error estimate vanishes up to the order 5. -/
theorem order5_err (t : Tree) (ht : t.order ≤ 5) : |∑ j ∈ Finset.range 13, (coef er j : ℝ) * stageW' areal j t| ≤ 1 / 10 ^ 22 := by
  have := chk_spec (tol := 22) (c := fun _ => 0) (l := er) (N := 5) (by decide +kernel) (by decide +kernel) (by decide +kernel) t ht
  simpa using this

/-- The other embedded formula is of order 3. -/
theorem order3_err (t : Tree) (ht : t.order ≤ 3) : |(∑ j ∈ Finset.range 13, (coef bhh j : ℝ) * stageW' areal j t) - exactW t| ≤ 1 / 10 ^ 22 := by
  have := chk_spec (tol := 22) (c := fun _ => 1) (l := bhh) (N := 3) (by decide +kernel) (by decide +kernel) (by decide +kernel) t ht
  simpa [exactW] using this

/-- The interpolated solution: the k-th power of theta has the weights of trees of order k, up to the order 6. -/
theorem order6_dense (k : ℕ) (hk : 1 ≤ k) (hk7 : k ≤ 7) (t : Tree) (ht : t.order ≤ 6) :
    |(∑ j ∈ Finset.range 13, (coef (denseW.getD (k - 1) []) j : ℝ) * stageW' areal j t) - (if t.order = k then exactW t else 0)| ≤ 1 / 10 ^ 19 := by
  have := chk_spec (tol := 19) (c := fun n => if n = k then 1 else 0) (l := denseW.getD (k - 1) []) (N := 6) (by interval_cases k <;> decide +kernel)
    (by interval_cases k <;> decide +kernel) (by interval_cases k <;> decide +kernel) t ht
  split_ifs with h
  · simpa [h, exactW] using this
  · simpa [h] using this

/-- The times of the stages are the sums of the coefficients. -/
theorem row_sums (i : ℕ) (hi : i < 12) : |(cs.getD i 0 : ℚ) - ∑ j ∈ Finset.range i, acoef i j| ≤ 1 / 10 ^ 22 := by
  interval_cases i <;> decide +kernel

end Verif.Ode
