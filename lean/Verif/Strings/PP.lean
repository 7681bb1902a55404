import Verif.Strings.Model
import Mathlib.Data.Rat.Floor
import Mathlib.Tactic.Linarith
import Mathlib.Tactic.NormNum
import Mathlib.Tactic.Ring
import Mathlib.Tactic.SplitIfs

/-
Model of the pretty-printing routine `utils::pp` (/repo/src/utils.cpp:348-462) and its width theorem (C10).
-/
namespace Verif.Strings

/-- A `double` argument of `pp`: zero, infinity or NaN, or a finite non-zero number given by its sign
bit (true = negative) and its magnitude (an exact rational number). -/
inductive Num where
  | zero (sign : Bool)
  | inf (sign : Bool)
  | nan
  | fin (sign : Bool) (x : ℚ)

/-- Round to nearest integer, ties to even (the rounding that glibc's `printf` applies to the exact
decimal expansion). -/
def roundHalfEven (y : ℚ) : Nat :=
  let f := ⌊y⌋.toNat
  let r := y - f
  if r < 1/2 then f else if 1/2 < r then f + 1 else if f % 2 = 0 then f else f + 1

/-- The text produced by `printf("%-#.*f", prec, x)` for a non-negative `x`: the decimal point is
always present because of the `#` flag. -/
def fmtFixed (prec : Nat) (x : ℚ) : Str :=
  let n := roundHalfEven (x * 10^prec)
  let frac := Nat.toDigits 10 (n % 10^prec)
  Nat.toDigits 10 (n / 10^prec) ++ '.' ::
    (if prec = 0 then [] else List.replicate (prec - frac.length) '0' ++ frac)

/-- The text produced by `printf("%-i", n)`. -/
def intStr (n : Int) : Str :=
  if n < 0 then '-' :: Nat.toDigits 10 n.natAbs else Nat.toDigits 10 n.natAbs

/-- utils.cpp:353 -/
def MAXWIDTH : Nat := 31

/-- `snprintf(buf, limit, ...)`: the visible content of `buf` is cut to `limit-1` characters, the
returned length is that of the full text. -/
def snprintf (limit : Nat) (text : Str) : Str × Nat := (text.take (limit - 1), text.length)

/-- utils.cpp:413 -/
def lenExp (expon : Int) : Nat :=
  if expon ≤ -100 then 5 else if expon ≤ -10 then 4 else if expon < 0 then 3 else
  if expon < 10 then 2 else if expon < 100 then 3 else 4

/-- utils.cpp:434-460: exponential format or the "jail" symbols. `pre` is the text so far ("-" or
empty), `width` the remaining width, `xm` the mantissa `num / 10^expon` clipped to be at least 1. -/
def ppExp (pre : Str) (width : Nat) (expon : Int) (xm : ℚ) : Str :=
  let jail := pre ++ List.replicate width '#'
  if lenExp expon + 1 ≤ width then
    let b := snprintf MAXWIDTH (fmtFixed (width - 2 - lenExp expon) xm)
    let (buf, len) := b
    let up := decide (2 ≤ len) && (buf[0]? == some '1') && (buf[1]? == some '0')
    let expon' := if up then expon + 1 else expon
    let buf' := if up then (if 2 < len then (buf.set 1 '.').set 2 '0' else buf.set 1 '.') else buf
    let e := snprintf 6 (intStr expon')
    let len_exp := e.2 + 1
    if len_exp < width then
      (pre ++ (if len > width - len_exp then buf'.take (width - len_exp) else buf')) ++ 'e' :: e.1
    else jail
  else jail

/-- utils.cpp:389-461: finite non-zero numbers, after the sign was split off. Result `none`: reading the
never-written element `buf[31]` (line 392). -/
def ppFinite (pre : Str) (width : Nat) (x : ℚ) (expon : Int) (xm : ℚ) : Option Str :=
  let tail : Option Str :=
    -- lines 411-432: x<1 in fixed-point format
    let dig_exp : Int := max ((width : Int) - lenExp expon - 1) 1
    let dig_lt1 : Int := width - 1 + expon
    if expon < 0 ∧ (dig_lt1 ≥ dig_exp ∨ (x ≥ 1/2 ∧ width ≤ 2)) then
      let b := snprintf MAXWIDTH (fmtFixed (width - 2) x)
      some (pre ++ (if b.2 > width then b.1.take width else b.1))
    else some (ppExp pre width expon xm)
  -- lines 389-409: x>=1 in fixed-point format
  if 0 ≤ expon ∧ expon ≤ (width : Int) - 1 then
    let b := snprintf MAXWIDTH (fmtFixed ((width : Int) - 2 - expon).toNat x)
    let cut : Option Bool :=    -- line 392
      if b.2 = width + 1 then
        if width < 30 then some (b.1[width]? == some '.')
        else if width = 30 then some false       -- buf[30] is the terminating NUL
        else none                                 -- buf[31] is never written
      else some false
    match cut with
    | none => none
    | some true => some (pre ++ b.1.take width)
    | some false =>
      if b.2 = width then some (pre ++ b.1) else
      let b2 := snprintf MAXWIDTH (fmtFixed ((width : Int) - 3 - expon).toNat x)
      if b2.2 = width then some (pre ++ b2.1) else tail
  else tail

/-- `std::string::resize(n, c)`. -/
def resize (s : Str) (n : Nat) (c : Char) : Str := s.take n ++ List.replicate (n - s.length) c

/-- utils.cpp:350-462, `pp(num, width)`.
(O): `expon` is the value computed as `(int)floor(log10(|num|))` and `xm` that of
`num / pow(10, expon)` clipped to be at least 1 (both subject to rounding) -- they are parameters. -/
def pp (num : Num) (width : Nat) (expon : Int) (xm : ℚ) : Option Str :=
  let width := if width > MAXWIDTH then MAXWIDTH else width
  if width < 1 then some [] else
  match num with
  | .zero sign =>
    let r := List.replicate width '0'
    let r := if width > 1 ∧ sign then r.set 0 '-' else r
    let r := if width > (if sign then 2 else 1) then r.set (1 + (if sign then 1 else 0)) '.' else r
    some r
  | .inf sign => some (resize (if sign then "-INF".toList else "+INF".toList) width ' ')
  | .nan => some (resize "NAN".toList width ' ')
  | .fin sign x =>
    let pre := if sign then ['-'] else []
    let width := if sign then width - 1 else width
    if width = 0 then some pre else ppFinite pre width x expon xm

/-! ### lemmas -/

theorem fmtFixed_length (prec : Nat) (x : ℚ) :
    (fmtFixed prec x).length = (Nat.toDigits 10 (roundHalfEven (x * 10^prec) / 10^prec)).length + 1 + prec := by
  unfold fmtFixed
  simp only [List.length_append, List.length_cons]
  by_cases h : prec = 0
  · subst h; simp
  · simp only [h, if_false, List.length_append, List.length_replicate]
    have : (Nat.toDigits 10 (roundHalfEven (x * 10^prec) % 10^prec)).length ≤ prec :=
      (Nat.length_toDigits_le_iff (by norm_num) (by omega)).2 (Nat.mod_lt _ (by positivity))
    omega

theorem roundHalfEven_le (y : ℚ) (n : Nat) (h : y ≤ n) : roundHalfEven y ≤ n := by
  unfold roundHalfEven
  by_cases h0 : 0 ≤ y
  · have hf0 : 0 ≤ ⌊y⌋ := Int.floor_nonneg.2 h0
    have hfe : ((⌊y⌋.toNat : ℕ) : ℚ) = (⌊y⌋ : ℚ) := by exact_mod_cast Int.toNat_of_nonneg hf0
    have hle : (⌊y⌋.toNat : ℚ) ≤ y := by rw [hfe]; exact Int.floor_le y
    simp only
    generalize hg : ⌊y⌋.toNat = f at *
    have hfn : f ≤ n := by
      have : (f : ℚ) ≤ n := le_trans hle h
      exact_mod_cast this
    by_cases hlt : f < n
    · split_ifs <;> omega
    · have hfn' : f = n := by omega
      have : y - f ≤ 0 := by rw [hfn']; linarith
      rw [if_pos (by linarith)]; omega
  · have hz : ⌊y⌋.toNat = 0 := by
      rw [Int.toNat_eq_zero]; exact le_of_lt (Int.floor_lt.2 (by push_cast; linarith))
    simp only [hz]
    rw [if_pos (by push_cast; linarith)]; omega

/-- numbers below 1 are printed with a single digit before the point -/
theorem fmtFixed_lt1 (prec : Nat) (x : ℚ) (hx : x < 1) : (fmtFixed prec x).length = 2 + prec := by
  rw [fmtFixed_length]
  have h1 : roundHalfEven (x * 10^prec) ≤ 10^prec := by
    apply roundHalfEven_le
    push_cast
    have : (0:ℚ) < 10^prec := by positivity
    nlinarith
  have h2 : roundHalfEven (x * 10^prec) / 10^prec ≤ 1 :=
    Nat.div_le_of_le_mul (by omega)
  have h3 : (Nat.toDigits 10 (roundHalfEven (x * 10^prec) / 10^prec)).length ≤ 1 :=
    (Nat.length_toDigits_le_iff (by norm_num) (by norm_num)).2 (by omega)
  have h4 : 0 < (Nat.toDigits 10 (roundHalfEven (x * 10^prec) / 10^prec)).length := Nat.length_toDigits_pos
  omega

theorem fmtFixed_two (prec : Nat) (x : ℚ) : 2 + prec ≤ (fmtFixed prec x).length := by
  rw [fmtFixed_length]
  have h4 : 0 < (Nat.toDigits 10 (roundHalfEven (x * 10^prec) / 10^prec)).length := Nat.length_toDigits_pos
  omega

/-- if the second character is a digit, there are at least two digits before the point -/
theorem fmtFixed_second (prec : Nat) (x : ℚ) (h : (fmtFixed prec x)[1]? = some '0') :
    3 + prec ≤ (fmtFixed prec x).length := by
  rw [fmtFixed_length]
  have h4 : 0 < (Nat.toDigits 10 (roundHalfEven (x * 10^prec) / 10^prec)).length := Nat.length_toDigits_pos
  by_contra hc
  have h1 : (Nat.toDigits 10 (roundHalfEven (x * 10^prec) / 10^prec)).length = 1 := by omega
  unfold fmtFixed at h
  simp only at h
  rw [List.getElem?_append_right (by omega), h1] at h
  simp at h

theorem digits_len_le (n k : Nat) (hk : 0 < k) : (Nat.toDigits 10 n).length ≤ k ↔ n < 10^k :=
  Nat.length_toDigits_le_iff (by norm_num) hk

theorem digits_len (n k : Nat) (h1 : 10^k ≤ n) (h2 : n < 10^(k+1)) : (Nat.toDigits 10 n).length = k+1 := by
  have a := (digits_len_le n (k+1) (by omega)).2 h2
  by_cases hk : k = 0
  · subst hk
    have : 0 < (Nat.toDigits 10 n).length := Nat.length_toDigits_pos
    omega
  · have b := mt (digits_len_le n k (by omega)).1 (by omega)
    omega

theorem intStr_length (e : Int) (h1 : -999 ≤ e) (h2 : e ≤ 999) : (intStr e).length + 1 = lenExp e := by
  unfold intStr lenExp
  have d1 : ∀ n, n < 10 → (Nat.toDigits 10 n).length = 1 := by
    intro n hn
    have a := (digits_len_le n 1 (by omega)).2 (by omega)
    have : 0 < (Nat.toDigits 10 n).length := Nat.length_toDigits_pos
    omega
  have d2 : ∀ n, 10 ≤ n → n < 100 → (Nat.toDigits 10 n).length = 2 :=
    fun n a b => digits_len n 1 (by omega) (by omega)
  have d3 : ∀ n, 100 ≤ n → n < 1000 → (Nat.toDigits 10 n).length = 3 :=
    fun n a b => digits_len n 2 (by omega) (by omega)
  by_cases h0 : e < 0
  · rw [if_pos h0, List.length_cons]
    by_cases a : e ≤ -100
    · rw [if_pos a, d3 _ (by omega) (by omega)]
    · rw [if_neg a]
      by_cases b : e ≤ -10
      · rw [if_pos b, d2 _ (by omega) (by omega)]
      · rw [if_neg b, if_pos h0, d1 _ (by omega)]
  · rw [if_neg h0, if_neg (by omega), if_neg (by omega), if_neg (by omega)]
    by_cases a : e < 10
    · rw [if_pos a, d1 _ (by omega)]
    · rw [if_neg a]
      by_cases b : e < 100
      · rw [if_pos b, d2 _ (by omega) (by omega)]
      · rw [if_neg b, d3 _ (by omega) (by omega)]

theorem lenExp_succ (e : Int) : lenExp (e+1) ≤ lenExp e + 1 ∧ lenExp e ≤ lenExp (e+1) + 1 := by
  unfold lenExp
  split_ifs <;> omega

theorem lenExp_bounds (e : Int) : 2 ≤ lenExp e ∧ lenExp e ≤ 5 := by
  unfold lenExp; split_ifs <;> omega

theorem assemble_length (pre buf : Str) (len width : Nat) (e : Int) (hw : width ≤ 31) (h1 : -999 ≤ e) (h2 : e ≤ 999)
    (hb : buf.length = min 30 len) (hlt : lenExp e < width) (hlen : width - lenExp e ≤ len) :
    ((pre ++ (if len > width - ((snprintf 6 (intStr e)).2 + 1) then
        buf.take (width - ((snprintf 6 (intStr e)).2 + 1)) else buf)) ++
        'e' :: (snprintf 6 (intStr e)).1).length = pre.length + width := by
  have hi := intStr_length e h1 h2
  have hb2 := lenExp_bounds e
  have hs2 : (snprintf 6 (intStr e)).2 + 1 = lenExp e := hi
  have hs1 : (snprintf 6 (intStr e)).1.length = lenExp e - 1 := by
    simp only [snprintf, List.length_take]; omega
  rw [hs2]
  simp only [List.length_append, List.length_cons, hs1]
  split_ifs with h
  · rw [List.length_take, hb]; omega
  · rw [hb]; omega

theorem ppExp_length (pre : Str) (width : Nat) (hw : width ≤ 31) (expon : Int) (he1 : -999 ≤ expon)
    (he2 : expon ≤ 998) (xm : ℚ) : (ppExp pre width expon xm).length = pre.length + width := by
  unfold ppExp
  simp only
  by_cases h1 : lenExp expon + 1 ≤ width
  · rw [if_pos h1]
    have hlb := lenExp_bounds expon
    have htwo := fmtFixed_two (width - 2 - lenExp expon) xm
    have hsnd := fmtFixed_second (width - 2 - lenExp expon) xm
    have hbl : (snprintf MAXWIDTH (fmtFixed (width - 2 - lenExp expon) xm)).1.length =
        min 30 (snprintf MAXWIDTH (fmtFixed (width - 2 - lenExp expon) xm)).2 := by
      simp [snprintf, MAXWIDTH]
    have hb1 : (snprintf MAXWIDTH (fmtFixed (width - 2 - lenExp expon) xm)).1[1]? =
        (fmtFixed (width - 2 - lenExp expon) xm)[1]? := by
      simp only [snprintf, MAXWIDTH]; rw [List.getElem?_take_of_lt (by norm_num)]
    have hl2 : (snprintf MAXWIDTH (fmtFixed (width - 2 - lenExp expon) xm)).2 =
        (fmtFixed (width - 2 - lenExp expon) xm).length := rfl
    rw [← hl2] at htwo hsnd
    rw [← hb1] at hsnd
    generalize (snprintf MAXWIDTH (fmtFixed (width - 2 - lenExp expon) xm)).1 = buf at *
    generalize (snprintf MAXWIDTH (fmtFixed (width - 2 - lenExp expon) xm)).2 = len at *
    by_cases hup : (decide (2 ≤ len) && (buf[0]? == some '1') && (buf[1]? == some '0')) = true
    · simp only [hup, if_true]
      have h0 : buf[1]? = some '0' := by
        simp only [Bool.and_eq_true, beq_iff_eq] at hup; exact hup.2
      have h3 := hsnd h0
      have hs := lenExp_succ expon
      have hi := intStr_length (expon+1) (by omega) (by omega)
      by_cases h4 : (snprintf 6 (intStr (expon+1))).2 + 1 < width
      · rw [if_pos h4]
        apply assemble_length
        · omega
        · omega
        · omega
        · split_ifs <;> simp [hbl]
        · have : (snprintf 6 (intStr (expon+1))).2 = (intStr (expon+1)).length := rfl
          omega
        · omega
      · rw [if_neg h4]; simp
    · simp only [hup, Bool.false_eq_true, if_false]
      have hi := intStr_length expon (by omega) (by omega)
      by_cases h4 : (snprintf 6 (intStr expon)).2 + 1 < width
      · rw [if_pos h4]
        apply assemble_length
        · omega
        · omega
        · omega
        · exact hbl
        · omega
        · omega
      · rw [if_neg h4]; simp
  · rw [if_neg h1]; simp

theorem ppFinite_length (pre : Str) (width : Nat) (h1 : 1 ≤ width) (hw : width ≤ 30) (x : ℚ) (expon : Int)
    (he1 : -999 ≤ expon) (he2 : expon ≤ 998) (hx : expon < 0 → x < 1) (xm : ℚ) :
    ∃ s, ppFinite pre width x expon xm = some s ∧ s.length = pre.length + width := by
  unfold ppFinite
  simp only
  have tail : ∃ s, (if expon < 0 ∧ ((width : Int) - 1 + expon ≥ max ((width : Int) - lenExp expon - 1) 1 ∨
        (x ≥ 1/2 ∧ width ≤ 2)) then
      some (pre ++ (if (snprintf MAXWIDTH (fmtFixed (width - 2) x)).2 > width then
        (snprintf MAXWIDTH (fmtFixed (width - 2) x)).1.take width else
        (snprintf MAXWIDTH (fmtFixed (width - 2) x)).1))
      else some (ppExp pre width expon xm)) = some s ∧ s.length = pre.length + width := by
    split_ifs with h a
    · refine ⟨_, rfl, ?_⟩
      have hl := fmtFixed_lt1 (width - 2) x (hx h.1)
      simp only [snprintf, MAXWIDTH, List.length_append, List.length_take] at *
      omega
    · refine ⟨_, rfl, ?_⟩
      have hl := fmtFixed_lt1 (width - 2) x (hx h.1)
      simp only [snprintf, MAXWIDTH, List.length_append, List.length_take] at *
      omega
    · exact ⟨_, rfl, ppExp_length pre width (by omega) expon he1 he2 xm⟩
  by_cases h : 0 ≤ expon ∧ expon ≤ (width : Int) - 1
  · rw [if_pos h]
    generalize hT : fmtFixed ((width : Int) - 2 - expon).toNat x = T
    generalize hU : fmtFixed ((width : Int) - 3 - expon).toNat x = U
    have hfin : ∀ T : Str, T.length = width → (pre ++ (snprintf MAXWIDTH T).1).length = pre.length + width := by
      intro T hT
      simp only [snprintf, MAXWIDTH, List.length_append, List.length_take]; omega
    have rest : ∃ s, (if (snprintf MAXWIDTH T).2 = width then some (pre ++ (snprintf MAXWIDTH T).1) else
        if (snprintf MAXWIDTH U).2 = width then some (pre ++ (snprintf MAXWIDTH U).1) else
        (if expon < 0 ∧ ((width : Int) - 1 + expon ≥ max ((width : Int) - lenExp expon - 1) 1 ∨
        (x ≥ 1/2 ∧ width ≤ 2)) then
      some (pre ++ (if (snprintf MAXWIDTH (fmtFixed (width - 2) x)).2 > width then
        (snprintf MAXWIDTH (fmtFixed (width - 2) x)).1.take width else
        (snprintf MAXWIDTH (fmtFixed (width - 2) x)).1))
      else some (ppExp pre width expon xm))) = some s ∧ s.length = pre.length + width := by
      by_cases c1 : (snprintf MAXWIDTH T).2 = width
      · rw [if_pos c1]; exact ⟨_, rfl, hfin T c1⟩
      · rw [if_neg c1]
        by_cases c2 : (snprintf MAXWIDTH U).2 = width
        · rw [if_pos c2]; exact ⟨_, rfl, hfin U c2⟩
        · rw [if_neg c2]; exact tail
    by_cases c0 : (snprintf MAXWIDTH T).2 = width + 1
    · rw [if_pos c0]
      by_cases c3 : width < 30
      · rw [if_pos c3]
        cases hb : ((snprintf MAXWIDTH T).1[width]? == some '.') with
        | true =>
          refine ⟨_, rfl, ?_⟩
          have : T.length = width + 1 := c0
          simp only [snprintf, MAXWIDTH, List.length_append, List.length_take]; omega
        | false => exact rest
      · rw [if_neg c3, if_pos (by omega)]; exact rest
    · rw [if_neg c0]; exact rest
  · rw [if_neg h]; exact tail

/-! ### C10 -/

/-- C10 (partial). For every number and every width from 0 to 30, `pp` returns a string of exactly the
requested width. `expon` and `xm` are whatever the (rounded) logarithm and division gave; all that is
assumed is that the decimal exponent of a double fits in three digits and that it is negative only
for magnitudes below 1. Missing: widths of 31 and more (false, see `C10_refuted_31`, `C10_refuted_wide`). -/
theorem C10_exact_width_partial (num : Num) (width : Nat) (hw : width ≤ 30) (expon : Int) (xm : ℚ)
    (he : -999 ≤ expon ∧ expon ≤ 998) (hx : ∀ sign x, num = .fin sign x → expon < 0 → x < 1) :
    ∃ s, pp num width expon xm = some s ∧ s.length = width := by
  unfold pp
  have h31 : ¬ width > MAXWIDTH := by unfold MAXWIDTH; omega
  simp only [h31, if_false]
  by_cases h1 : width < 1
  · rw [if_pos h1]; exact ⟨[], rfl, by simp; omega⟩
  · rw [if_neg h1]
    have hres : ∀ s c, (resize s width c).length = width := by
      intro s c; simp only [resize, List.length_append, List.length_take, List.length_replicate]; omega
    cases num with
    | zero sign => refine ⟨_, rfl, ?_⟩; split_ifs <;> simp
    | inf sign => exact ⟨_, rfl, hres _ _⟩
    | nan => exact ⟨_, rfl, hres _ _⟩
    | fin sign x =>
      have hx' := hx sign x rfl
      cases sign with
      | false =>
        simp only [Bool.false_eq_true, if_false]
        rw [if_neg (by omega)]
        obtain ⟨s, hs, hl⟩ := ppFinite_length [] width (by omega) hw x expon he.1 he.2 hx' xm
        exact ⟨s, hs, by simpa using hl⟩
      | true =>
        simp only [if_true]
        by_cases h0 : width - 1 = 0
        · rw [if_pos h0]; exact ⟨_, rfl, by simp; omega⟩
        · rw [if_neg h0]
          obtain ⟨s, hs, hl⟩ := ppFinite_length ['-'] (width-1) (by omega) (by omega) x expon he.1 he.2 hx' xm
          refine ⟨s, hs, ?_⟩
          rw [hl]; simp; omega

-- concrete instances: 9.996 rounded up; a tiny number in exponential format; too narrow
example : pp (.fin false (9996/1000)) 4 0 (9996/1000) = some "10.0".toList := by decide +kernel
example : pp (.fin true (234/100000000)) 8 (-6) (234/100) = some "-2.34e-6".toList := by decide +kernel
example : pp (.fin false (999/100000)) 4 (-3) (999/100) = some "1e-2".toList := by decide +kernel
example : pp (.fin false (10^200)) 4 200 1 = some "####".toList := by decide +kernel

/-- C10 is FALSE of the code for width 31: the number 1 is printed in 30 characters, because the buffer
size passed to `snprintf` is one too small. -/
theorem C10_refuted_31 : ∃ s, pp (.fin false 1) 31 0 1 = some s ∧ s.length = 30 := by
  have h : (pp (.fin false 1) 31 0 1).map List.length = some 30 := by decide +kernel
  cases hp : pp (.fin false 1) 31 0 1 with
  | none => rw [hp] at h; simp at h
  | some s => rw [hp] at h; exact ⟨s, rfl, by simpa using h⟩

/-- ... and the number 10^30 makes it read an element of the buffer which was never written. -/
theorem C10_uninitialised_read : pp (.fin false (10^30)) 31 30 1 = none := by decide +kernel

/-- C10 is FALSE for any width above 31: the string is never longer than 31 characters
(shown for every number). -/
theorem C10_refuted_wide (num : Num) (width : Nat) (hw : 31 < width) (expon : Int) (xm : ℚ) :
    pp num width expon xm = pp num 31 expon xm := by
  unfold pp
  have a : width > MAXWIDTH := hw
  have b : ¬ (31 > MAXWIDTH) := by decide
  simp only [a, if_true, b, if_false]
  rfl

end Verif.Strings
