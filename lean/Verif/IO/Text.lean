import Verif.Strings.Props
import Mathlib.Data.Real.Basic
import Mathlib.Tactic.Linarith
import Mathlib.Tactic.NormNum
import Mathlib.Tactic.FieldSimp

/-! # C101: N-body snapshots in the text format

Model of /repo/src/particles_io.cpp (text format) and of the format detection. A file is the list of its characters; opening and writing the file succeed. The type `V` of numbers is a parameter (real numbers in the main theorems; a type with a non-finite value in the refutations); `fmt` is `utils::toString(value, 8)`, i.e. printf with the format %.8g (utils.cpp:294-298), and `strtod` the standard function used in `utils::toDouble` (utils.cpp:262-271). -/

namespace Verif.IO

open Verif.Strings

/-- units.h: the conversion factors used in particles_io.cpp -/
structure Units (V : Type) where (lengthUnit velocityUnit massUnit : V)

/-- particles_base.h:15-20 together with the mass of the particle (`ElemType`, line 55) -/
structure Part (V : Type) where (x y z vx vy vz mass stellarMass stellarRadius : V)

/-- the three kinds of particles: PosCar, PosVelCar, ParticleAux -/
inductive Kind | pos | posvel | aux
deriving DecidableEq

section
variable {V : Type} [Zero V] [Mul V] [Div V] (fmt : V → Str) (strtod : Str → Option V)

/-- particles_io.cpp:23-33 -/
def formatHeader : Kind → Str
  | .pos => "#x\ty\tz\tmass\n".toList
  | .posvel => "#x\ty\tz\tvx\tvy\tvz\tmass\n".toList
  | .aux => "#x\ty\tz\tvx\tvy\tvz\tparticleMass\tstellarMass\tstellarRadius\n".toList

/-- particles_io.cpp:35-71 -/
def formatParticle (k : Kind) (u : Units V) (p : Part V) : Str :=
  match k with
  | .pos =>
    fmt (p.x / u.lengthUnit) ++ ['\t'] ++
    fmt (p.y / u.lengthUnit) ++ ['\t'] ++
    fmt (p.z / u.lengthUnit) ++ ['\t'] ++
    fmt (p.mass / u.massUnit) ++ ['\n']
  | .posvel =>
    fmt (p.x / u.lengthUnit) ++ ['\t'] ++
    fmt (p.y / u.lengthUnit) ++ ['\t'] ++
    fmt (p.z / u.lengthUnit) ++ ['\t'] ++
    fmt (p.vx / u.velocityUnit) ++ ['\t'] ++
    fmt (p.vy / u.velocityUnit) ++ ['\t'] ++
    fmt (p.vz / u.velocityUnit) ++ ['\t'] ++
    fmt (p.mass / u.massUnit) ++ ['\n']
  | .aux =>
    fmt (p.x / u.lengthUnit) ++ ['\t'] ++
    fmt (p.y / u.lengthUnit) ++ ['\t'] ++
    fmt (p.z / u.lengthUnit) ++ ['\t'] ++
    fmt (p.vx / u.velocityUnit) ++ ['\t'] ++
    fmt (p.vy / u.velocityUnit) ++ ['\t'] ++
    fmt (p.vz / u.velocityUnit) ++ ['\t'] ++
    fmt (p.mass / u.massUnit) ++ ['\t'] ++
    fmt (p.stellarMass / u.massUnit) ++ ['\t'] ++
    fmt (p.stellarRadius / u.lengthUnit) ++ ['\n']

/-- particles_io.cpp:86-87 -/
def timeLine : Option Str → Str
  | some t => ['#', 't', 'i', 'm', 'e', ':', ' '] ++ t ++ ['\n']
  | none => []

/-- particles_io.cpp:73-93, writeSnapshotText; `time` is the formatted time, or `none` if it is not finite -/
def writeSnapshotText (k : Kind) (points : List (Part V)) (u : Units V) (header : Str) (time : Option Str) : Str :=
  (if header ≠ [] then ['#'] ++ header ++ ['\n'] else []) ++
  timeLine time ++ formatHeader k ++ points.flatMap (formatParticle fmt k u)

/-- utils.cpp:262-271, toDouble; `none` is an exception -/
def toDouble (s : Str) : Option V := if s = [] then some 0 else strtod s

/-- particles_io.cpp:106: the loop `while(std::getline(strm, buffer) && !strm.eof())` sees only the lines terminated by a newline -/
def linesAux : Str → Str → List Str
  | _, [] => []
  | cur, c :: rest => if c = '\n' then cur :: linesAux [] rest else linesAux (cur ++ [c]) rest
/-- particles_io.cpp:106 -/
def completeLines (s : Str) : List Str := linesAux [] s

/-- particles_io.cpp:111-114: does the character start a number? -/
def numStart (c : Char) : Bool := (decide ('0' ≤ c) && decide (c ≤ '9')) || c == '-' || c == '+'

/-- particles_io.cpp:111-130: the outer `none` is an exception, the inner `none` a skipped line -/
def parseFields (u : Units V) (fields : List Str) : Option (Option (Part V)) :=
  let numFields := fields.length
  if numFields < 4 ∨ numStart ((fields.headD []).headD '\x00') = false then some none else do
    let haveVel : Bool := numFields ≥ 7
    let particleMass := (← toDouble strtod (fields.getD (if haveVel then 6 else 3) [])) * u.massUnit
    let stellarMass ← if numFields ≥ 8 then (toDouble strtod (fields.getD 7 [])).map (· * u.massUnit) else some particleMass
    let stellarRadius ← if numFields ≥ 9 then (toDouble strtod (fields.getD 8 [])).map (· * u.lengthUnit) else some 0
    let x := (← toDouble strtod (fields.getD 0 [])) * u.lengthUnit
    let y := (← toDouble strtod (fields.getD 1 [])) * u.lengthUnit
    let z := (← toDouble strtod (fields.getD 2 [])) * u.lengthUnit
    let vx ← if haveVel then (toDouble strtod (fields.getD 3 [])).map (· * u.velocityUnit) else some 0
    let vy ← if haveVel then (toDouble strtod (fields.getD 4 [])).map (· * u.velocityUnit) else some 0
    let vz ← if haveVel then (toDouble strtod (fields.getD 5 [])).map (· * u.velocityUnit) else some 0
    return some ⟨x, y, z, vx, vy, vz, particleMass, stellarMass, stellarRadius⟩

/-- particles_io.cpp:108-131 -/
def readLine (u : Units V) (buffer : Str) : Option (Option (Part V)) :=
  if buffer ≠ [] ∧ isComment (buffer.headD ' ') then some none else
  (splitString buffer "#;, \t".toList).bind (parseFields strtod u)

/-- particles_io.cpp:106-132: the loop over lines -/
def readLines (u : Units V) : List Str → Option (List (Part V))
  | [] => some []
  | l :: ls => do
    let p ← readLine strtod u l
    let ps ← readLines u ls
    return p.toList ++ ps

/-- particles_io.cpp:100-102, 455: the first byte of a text file is at least 32, as a signed char -/
def textByte (c : Char) : Bool := 32 ≤ c.toNat && c.toNat < 128

/-- particles_io.cpp:95-135, readSnapshotText; `none` is an exception -/
def readSnapshotText (u : Units V) (data : Str) : Option (List (Part V)) :=
  match data with
  | [] => none
  | c :: _ => if textByte c then readLines strtod u (completeLines data) else none

/-- result of particles_io.cpp:431-460 -/
inductive Format | binary | text | unknown
deriving DecidableEq

/-- particles_io.cpp:431-460: the file format determined from the first bytes; missing bytes (files shorter than 8 bytes leave the buffer uninitialized) are represented by arbitrary `pad` characters -/
def detectFormat (data : Str) (pad : ℕ → Char) : Format :=
  let b := fun i => (data.getD i (pad i)).toNat
  if (b 0 = 146 ∧ (b 2 = 'c'.toNat ∨ b 2 = 'i'.toNat ∨ b 2 = 'f'.toNat ∨ b 2 = 'd'.toNat ∨ b 2 = '('.toNat)) ∨
      (b 0 = 8 ∧ b 1 = 0 ∧ b 2 = 0 ∧ b 3 = 0) ∨ (b 0 = 0 ∧ b 1 = 1 ∧ b 2 = 0 ∧ b 3 = 0) ∨
      (b 0 = 0 ∧ b 1 = 0 ∧ b 2 = 8 ∧ b 3 = 0) ∨ (b 0 = 0 ∧ b 1 = 0 ∧ b 2 = 0 ∧ b 3 = 1) then .binary
  else if 32 ≤ b 0 ∧ b 0 < 128 then .text else .unknown

/-- particles_io.cpp:431-460, readSnapshot without the UNSIO library; `none` is an exception -/
def readSnapshot (u : Units V) (data : Str) (pad : ℕ → Char) : Option (List (Part V)) :=
  match detectFormat data pad with
  | .binary => none
  | .text => readSnapshotText strtod u data
  | .unknown => none

end

/-! ## specification -/

/-- what the C standard guarantees about printing a finite number with the format %.8g and reading it back: the text consists of digits, signs, a decimal point and `e`, begins with a digit or a minus sign,
and the value read is within half a unit of the eighth significant digit (which is at most 5e-8 of the number itself; the underflow of tiny numbers is not considered) -/
structure Printf (fmt : ℝ → Str) (strtod : Str → Option ℝ) : Prop where
  chars : ∀ x, ∀ c ∈ fmt x, c ∈ "0123456789+-.e".toList
  start : ∀ x, ∃ c r, fmt x = c :: r ∧ c ∈ "0123456789-".toList
  value : ∀ x, ∃ y, strtod (fmt x) = some y ∧ |y - x| ≤ 5e-8 * |x|

/-- the value read is close to the value written -/
def Close (a b : ℝ) : Prop := |b - a| ≤ 5e-8 * |a|

/-- what is read back from the file: everything which is written is accurate to 5e-8; the velocities which were not written are zero, the missing stellar mass is the particle mass, the missing stellar radius is zero -/
def ReadBack (k : Kind) (p q : Part ℝ) : Prop :=
  Close p.x q.x ∧ Close p.y q.y ∧ Close p.z q.z ∧ Close p.mass q.mass ∧
  (match k with
   | .pos => q.vx = 0 ∧ q.vy = 0 ∧ q.vz = 0
   | _ => Close p.vx q.vx ∧ Close p.vy q.vy ∧ Close p.vz q.vz) ∧
  (match k with
   | .aux => Close p.stellarMass q.stellarMass ∧ Close p.stellarRadius q.stellarRadius
   | _ => q.stellarMass = q.mass ∧ q.stellarRadius = 0)

/-! ## proofs -/

theorem linesAux_append (s t : Str) (hs : '\n' ∉ s) (cur : Str) : linesAux cur (s ++ '\n' :: t) = (cur ++ s) :: linesAux [] t := by
  induction s generalizing cur with
  | nil => simp [linesAux]
  | cons a s ih =>
    have ha : a ≠ '\n' := fun h => hs (by simp [h])
    rw [List.cons_append, linesAux, if_neg ha, ih (fun h => hs (by simp [h]))]
    simp

/-- a line followed by the newline -/
theorem completeLines_cons (s t : Str) (hs : '\n' ∉ s) : completeLines (s ++ '\n' :: t) = s :: completeLines t := by
  rw [completeLines, linesAux_append s t hs]
  rfl

/-- tokens separated by tabs -/
theorem tok_tabs (l : List Str) (hne : ∀ s ∈ l, s ≠ []) (hs : ∀ s ∈ l, ∀ c ∈ s, c ∈ "0123456789+-.e".toList) :
    splitString (joinStrings '\t' l) "#;, \t".toList = some l := by
  obtain ⟨toks, h, hT⟩ := C01_splitString (joinStrings '\t' l) "#;, \t".toList
  rw [h]
  congr 1
  apply C01_tokenisation_unique _ _ _ _ hT
  clear h hT toks
  have D : ∀ c : Char, c ∈ "0123456789+-.e".toList → ¬ c ∈ "#;, \t".toList := by decide
  induction l with
  | nil => exact Tok.nil [] (by simp)
  | cons a l ih =>
    have ih' := ih (fun s hs' => hne s (by simp [hs'])) (fun s hs' => hs s (by simp [hs']))
    have hta : ∀ c ∈ a, ¬ c ∈ "#;, \t".toList := fun c hc => D c (hs a (by simp) c hc)
    cases l with
    | nil =>
      have := Tok.cons (D := (· ∈ "#;, \t".toList)) [] a [] [] (by simp) (hne a (by simp)) hta (by simp) (Tok.nil [] (by simp))
      simpa [joinStrings] using this
    | cons b l =>
      have h2 : Tok (· ∈ "#;, \t".toList) ('\t' :: joinStrings '\t' (b :: l)) (b :: l) := by
        generalize hz : joinStrings '\t' (b :: l) = z at ih'
        cases ih' with
        | cons g t rest toks hg hne ht hsep hr =>
          have := Tok.cons (D := (· ∈ "#;, \t".toList)) ('\t' :: g) b rest l (fun c hc => by
            rcases List.mem_cons.1 hc with rfl | hc
            · decide
            · exact hg c hc) hne ht hsep hr
          simpa using this
      have := Tok.cons (D := (· ∈ "#;, \t".toList)) [] a ('\t' :: joinStrings '\t' (b :: l)) (b :: l) (by simp) (hne a (by simp)) hta
        (by intro c r h; injection h with h1 h2; rw [← h1]; decide) h2
      simpa [joinStrings] using this

/-- the fields of one line -/
def fieldsOf {V : Type} [Div V] (fmt : V → Str) (k : Kind) (u : Units V) (p : Part V) : List Str :=
  match k with
  | .pos => [fmt (p.x / u.lengthUnit), fmt (p.y / u.lengthUnit), fmt (p.z / u.lengthUnit), fmt (p.mass / u.massUnit)]
  | .posvel => [fmt (p.x / u.lengthUnit), fmt (p.y / u.lengthUnit), fmt (p.z / u.lengthUnit), fmt (p.vx / u.velocityUnit), fmt (p.vy / u.velocityUnit), fmt (p.vz / u.velocityUnit), fmt (p.mass / u.massUnit)]
  | .aux => [fmt (p.x / u.lengthUnit), fmt (p.y / u.lengthUnit), fmt (p.z / u.lengthUnit), fmt (p.vx / u.velocityUnit), fmt (p.vy / u.velocityUnit), fmt (p.vz / u.velocityUnit), fmt (p.mass / u.massUnit),
      fmt (p.stellarMass / u.massUnit), fmt (p.stellarRadius / u.lengthUnit)]

theorem formatParticle_eq {V : Type} [Div V] (fmt : V → Str) (k : Kind) (u : Units V) (p : Part V) :
    formatParticle fmt k u p = joinStrings '\t' (fieldsOf fmt k u p) ++ ['\n'] := by
  cases k <;> simp [formatParticle, fieldsOf, joinStrings]

theorem joinStrings_chars (S : List Char) (sep : Char) (l : List Str) (hs : ∀ s ∈ l, ∀ c ∈ s, c ∈ S) : ∀ c ∈ joinStrings sep l, c = sep ∨ c ∈ S := by
  induction l with
  | nil => simp [joinStrings]
  | cons a l ih =>
    intro c hc
    cases l with
    | nil => exact Or.inr (hs a (by simp) c (by simpa [joinStrings] using hc))
    | cons b l =>
      simp only [joinStrings, List.mem_append, List.mem_cons] at hc
      rcases hc with h | h | h
      · exact Or.inr (hs a (by simp) c h)
      · exact Or.inl h
      · exact ih (fun s h => hs s (by simp [h])) c h

section
variable {fmt : ℝ → Str} {strtod : Str → Option ℝ}

theorem fields_chars (F : Printf fmt strtod) (k : Kind) (u : Units ℝ) (p : Part ℝ) :
    (∀ s ∈ fieldsOf fmt k u p, s ≠ []) ∧ ∀ s ∈ fieldsOf fmt k u p, ∀ c ∈ s, c ∈ "0123456789+-.e".toList := by
  have ne : ∀ x, fmt x ≠ [] := fun x h => by
    obtain ⟨c, r, e, -⟩ := F.start x
    rw [h] at e
    exact List.cons_ne_nil _ _ e.symm
  constructor
  · cases k <;> simp [fieldsOf, ne]
  · have := F.chars
    cases k <;> simp only [fieldsOf, List.mem_cons, List.not_mem_nil, or_false] <;> rintro s h c hc
    · rcases h with rfl | rfl | rfl | rfl <;> exact this _ _ hc
    · rcases h with rfl | rfl | rfl | rfl | rfl | rfl | rfl <;> exact this _ _ hc
    · rcases h with rfl | rfl | rfl | rfl | rfl | rfl | rfl | rfl | rfl <;> exact this _ _ hc

theorem close_mul (F : Printf fmt strtod) {u : ℝ} (hu : u ≠ 0) (x : ℝ) : ∃ y, toDouble strtod (fmt (x / u)) = some y ∧ Close x (y * u) := by
  obtain ⟨y, h1, h2⟩ := F.value (x / u)
  refine ⟨y, ?_, ?_⟩
  · rw [toDouble, if_neg, h1]
    intro h
    obtain ⟨c, r, e, -⟩ := F.start (x / u)
    rw [h] at e
    exact List.cons_ne_nil _ _ e.symm
  · have e : y * u - x = (y - x / u) * u := by field_simp
    rw [Close, e, abs_mul]
    have : |x| = |x / u| * |u| := by rw [← abs_mul, div_mul_cancel₀ _ hu]
    rw [this, ← mul_assoc]
    exact mul_le_mul_of_nonneg_right h2 (abs_nonneg _)

section
variable {V : Type} [Zero V] [Mul V] {strtod : Str → Option V} (u : Units V) {s0 s1 s2 s3 s4 s5 s6 s7 s8 : Str} {x y z vx vy vz m sm sr : V}

theorem parse4 (h : numStart (s0.headD '\x00') = true) (h0 : toDouble strtod s0 = some x) (h1 : toDouble strtod s1 = some y) (h2 : toDouble strtod s2 = some z) (h3 : toDouble strtod s3 = some m) :
    parseFields strtod u [s0, s1, s2, s3] = some (some ⟨x * u.lengthUnit, y * u.lengthUnit, z * u.lengthUnit, 0, 0, 0, m * u.massUnit, m * u.massUnit, 0⟩) := by
  simp [parseFields, -List.headD_eq_head?_getD, h, h0, h1, h2, h3]

theorem parse7 (h : numStart (s0.headD '\x00') = true) (h0 : toDouble strtod s0 = some x) (h1 : toDouble strtod s1 = some y) (h2 : toDouble strtod s2 = some z)
    (h3 : toDouble strtod s3 = some vx) (h4 : toDouble strtod s4 = some vy) (h5 : toDouble strtod s5 = some vz) (h6 : toDouble strtod s6 = some m) :
    parseFields strtod u [s0, s1, s2, s3, s4, s5, s6] =
      some (some ⟨x * u.lengthUnit, y * u.lengthUnit, z * u.lengthUnit, vx * u.velocityUnit, vy * u.velocityUnit, vz * u.velocityUnit, m * u.massUnit, m * u.massUnit, 0⟩) := by
  simp [parseFields, -List.headD_eq_head?_getD, h, h0, h1, h2, h3, h4, h5, h6]

theorem parse9 (h : numStart (s0.headD '\x00') = true) (h0 : toDouble strtod s0 = some x) (h1 : toDouble strtod s1 = some y) (h2 : toDouble strtod s2 = some z)
    (h3 : toDouble strtod s3 = some vx) (h4 : toDouble strtod s4 = some vy) (h5 : toDouble strtod s5 = some vz) (h6 : toDouble strtod s6 = some m)
    (h7 : toDouble strtod s7 = some sm) (h8 : toDouble strtod s8 = some sr) :
    parseFields strtod u [s0, s1, s2, s3, s4, s5, s6, s7, s8] =
      some (some ⟨x * u.lengthUnit, y * u.lengthUnit, z * u.lengthUnit, vx * u.velocityUnit, vy * u.velocityUnit, vz * u.velocityUnit, m * u.massUnit, sm * u.massUnit, sr * u.lengthUnit⟩) := by
  simp [parseFields, -List.headD_eq_head?_getD, h, h0, h1, h2, h3, h4, h5, h6, h7, h8]

end

/-- reading one line -/
theorem readLine_ok (F : Printf fmt strtod) (k : Kind) (u : Units ℝ) (h1 : u.lengthUnit ≠ 0) (h2 : u.velocityUnit ≠ 0) (h3 : u.massUnit ≠ 0) (p : Part ℝ) :
    ∃ q, readLine strtod u (joinStrings '\t' (fieldsOf fmt k u p)) = some (some q) ∧ ReadBack k p q := by
  obtain ⟨c1, c2⟩ := fields_chars F k u p
  have sp := tok_tabs _ c1 c2
  have hd : ∃ c r, joinStrings '\t' (fieldsOf fmt k u p) = c :: r ∧ isComment c = false := by
    obtain ⟨c, r, e, hc⟩ := F.start (p.x / u.lengthUnit)
    refine ⟨c, ?_⟩
    have : isComment c = false := (show ∀ c ∈ "0123456789-".toList, isComment c = false by decide) c hc
    cases k <;> simp [fieldsOf, joinStrings, e, this]
  obtain ⟨c, r, e, hc⟩ := hd
  obtain ⟨c', r', e', hc'⟩ := F.start (p.x / u.lengthUnit)
  have ns : numStart ((fmt (p.x / u.lengthUnit)).headD '\x00') = true := by
    rw [e']
    exact (show ∀ c ∈ "0123456789-".toList, numStart c = true by decide) c' hc'
  obtain ⟨x, x1, x2⟩ := close_mul F h1 p.x
  obtain ⟨y, y1, y2⟩ := close_mul F h1 p.y
  obtain ⟨z, z1, z2⟩ := close_mul F h1 p.z
  obtain ⟨vx, vx1, vx2⟩ := close_mul F h2 p.vx
  obtain ⟨vy, vy1, vy2⟩ := close_mul F h2 p.vy
  obtain ⟨vz, vz1, vz2⟩ := close_mul F h2 p.vz
  obtain ⟨m, m1, m2⟩ := close_mul F h3 p.mass
  obtain ⟨sm, sm1, sm2⟩ := close_mul F h3 p.stellarMass
  obtain ⟨sr, sr1, sr2⟩ := close_mul F h1 p.stellarRadius
  have nc : ¬ (joinStrings '\t' (fieldsOf fmt k u p) ≠ [] ∧ isComment ((joinStrings '\t' (fieldsOf fmt k u p)).headD ' ') = true) := by
    rw [e]
    simp [hc]
  rw [readLine, if_neg nc, sp]
  cases k
  · refine ⟨⟨x * u.lengthUnit, y * u.lengthUnit, z * u.lengthUnit, 0, 0, 0, m * u.massUnit, m * u.massUnit, 0⟩, ?_, x2, y2, z2, m2, ⟨rfl, rfl, rfl⟩, rfl, rfl⟩
    exact parse4 u ns x1 y1 z1 m1
  · refine ⟨⟨x * u.lengthUnit, y * u.lengthUnit, z * u.lengthUnit, vx * u.velocityUnit, vy * u.velocityUnit, vz * u.velocityUnit, m * u.massUnit, m * u.massUnit, 0⟩, ?_, x2, y2, z2, m2, ⟨vx2, vy2, vz2⟩, rfl, rfl⟩
    exact parse7 u ns x1 y1 z1 vx1 vy1 vz1 m1
  · refine ⟨⟨x * u.lengthUnit, y * u.lengthUnit, z * u.lengthUnit, vx * u.velocityUnit, vy * u.velocityUnit, vz * u.velocityUnit, m * u.massUnit, sm * u.massUnit, sr * u.lengthUnit⟩, ?_, x2, y2, z2, m2, ⟨vx2, vy2, vz2⟩, sm2, sr2⟩
    exact parse9 u ns x1 y1 z1 vx1 vy1 vz1 m1 sm1 sr1

theorem readLine_comment (u : Units ℝ) (s : Str) : readLine strtod u ('#' :: s) = some none := by
  rw [readLine, if_pos ⟨by simp, by simp [isComment]⟩]

theorem readLines_comment (u : Units ℝ) (s : Str) (l : List Str) : readLines strtod u (('#' :: s) :: l) = readLines strtod u l := by
  rw [readLines, readLine_comment]
  cases readLines strtod u l <;> rfl

theorem comment_line (u : Units ℝ) (s rest : Str) (out : List (Part ℝ)) (hs : '\n' ∉ s) (h : readLines strtod u (completeLines rest) = some out) :
    ∃ r, '#' :: s ++ '\n' :: rest = '#' :: r ∧ readLines strtod u (completeLines ('#' :: s ++ '\n' :: rest)) = some out := by
  refine ⟨s ++ '\n' :: rest, rfl, ?_⟩
  rw [completeLines_cons ('#' :: s) rest (by simpa using hs), readLines_comment, h]

theorem readLines_points (F : Printf fmt strtod) (k : Kind) (u : Units ℝ) (h1 : u.lengthUnit ≠ 0) (h2 : u.velocityUnit ≠ 0) (h3 : u.massUnit ≠ 0) (points : List (Part ℝ)) :
    ∃ out, readLines strtod u (completeLines (points.flatMap (formatParticle fmt k u))) = some out ∧ List.Forall₂ (ReadBack k) points out := by
  induction points with
  | nil => exact ⟨[], rfl, List.Forall₂.nil⟩
  | cons p ps ih =>
    obtain ⟨out, ho, hf⟩ := ih
    obtain ⟨q, hq, hr⟩ := readLine_ok F k u h1 h2 h3 p
    refine ⟨q :: out, ?_, List.Forall₂.cons hr hf⟩
    have nn : '\n' ∉ joinStrings '\t' (fieldsOf fmt k u p) := by
      intro h
      have := joinStrings_chars _ '\t' _ (fields_chars F k u p).2 _ h
      revert this
      decide
    rw [List.flatMap_cons, formatParticle_eq, List.append_assoc, List.singleton_append, completeLines_cons _ _ nn, readLines, hq, ho]
    rfl

/-- C101: an N-body snapshot written in the text format and read back contains the same particles in the same order with the same attributes to the printed accuracy, for any number of particles, any header and time without line breaks, and any non-zero units (the same ones for writing and reading) -/
theorem C101_text_roundtrip (F : Printf fmt strtod) (k : Kind) (u : Units ℝ) (h1 : u.lengthUnit ≠ 0) (h2 : u.velocityUnit ≠ 0) (h3 : u.massUnit ≠ 0)
    (points : List (Part ℝ)) (header : Str) (hh : '\n' ∉ header) (time : Option Str) (ht : ∀ t ∈ time, '\n' ∉ t) (pad : ℕ → Char) :
    ∃ out, readSnapshot strtod u (writeSnapshotText fmt k points u header time) pad = some out ∧ List.Forall₂ (ReadBack k) points out := by
  obtain ⟨out, ho, hf⟩ := readLines_points F k u h1 h2 h3 points
  refine ⟨out, ?_, hf⟩
  have fh : ∃ s, formatHeader k = '#' :: s ++ ['\n'] ∧ '\n' ∉ '#' :: s := by
    cases k
    · exact ⟨"x\ty\tz\tmass".toList, by decide, by decide⟩
    · exact ⟨"x\ty\tz\tvx\tvy\tvz\tmass".toList, by decide, by decide⟩
    · exact ⟨"x\ty\tz\tvx\tvy\tvz\tparticleMass\tstellarMass\tstellarRadius".toList, by decide, by decide⟩
  obtain ⟨s, es, ns⟩ := fh
  have key : ∃ r, writeSnapshotText fmt k points u header time = '#' :: r ∧
      readLines strtod u (completeLines (writeSnapshotText fmt k points u header time)) = some out := by
    have a : ∃ r, formatHeader k ++ points.flatMap (formatParticle fmt k u) = '#' :: r ∧
        readLines strtod u (completeLines (formatHeader k ++ points.flatMap (formatParticle fmt k u))) = some out := by
      rw [es, List.append_assoc, List.singleton_append]
      exact comment_line u s _ out (fun h => ns (List.mem_cons_of_mem _ h)) ho
    rw [show writeSnapshotText fmt k points u header time = (if header ≠ [] then ['#'] ++ header ++ ['\n'] else []) ++ (timeLine time ++ (formatHeader k ++ points.flatMap (formatParticle fmt k u))) by
      rw [writeSnapshotText]
      simp only [List.append_assoc]]
    generalize formatHeader k ++ points.flatMap (formatParticle fmt k u) = rest at a
    have b : ∃ r, timeLine time ++ rest = '#' :: r ∧ readLines strtod u (completeLines (timeLine time ++ rest)) = some out := by
      cases time with
      | none => simpa [timeLine] using a
      | some t =>
        have nt : '\n' ∉ ['t', 'i', 'm', 'e', ':', ' '] ++ t := by
          intro h
          rw [List.mem_append] at h
          rcases h with h | h
          · revert h; decide
          · exact ht t rfl h
        have := comment_line (strtod := strtod) u (['t', 'i', 'm', 'e', ':', ' '] ++ t) rest out nt a.choose_spec.2
        have e : timeLine (some t) ++ rest = '#' :: (['t', 'i', 'm', 'e', ':', ' '] ++ t) ++ '\n' :: rest := by simp [timeLine]
        rw [e]
        exact this
    by_cases he : header = []
    · rw [if_neg (by simpa using he), List.nil_append]
      exact b
    · rw [if_pos he]
      have := comment_line (strtod := strtod) u header _ out hh b.choose_spec.2
      simpa using this
  obtain ⟨r, e1, e2⟩ := key
  have df : detectFormat (writeSnapshotText fmt k points u header time) pad = .text := by
    rw [e1]
    simp [detectFormat]
  rw [readSnapshot, df]
  simp only
  rw [e1] at e2 ⊢
  rw [show readSnapshotText strtod u ('#' :: r) = if textByte '#' then readLines strtod u (completeLines ('#' :: r)) else none from rfl, if_pos (by decide), e2]

end

end Verif.IO
