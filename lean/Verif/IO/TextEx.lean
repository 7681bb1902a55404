import Verif.IO.Text
import Mathlib.Data.Rat.Encodable
import Mathlib.Data.Rat.Cast.Order
import Mathlib.Algebra.Order.Archimedean.Real.Basic

/-! # C101: examples and the cases in which the round trip fails -/

namespace Verif.IO

open Verif.Strings

/-! ## the hypotheses can be met -/

theorem exists_rat_close (x : ℝ) : ∃ q : ℚ, |(q : ℝ) - x| ≤ 5e-8 * |x| := by
  by_cases h : x = 0
  · exact ⟨0, by simp [h]⟩
  · have hx : 0 < |x| := abs_pos.2 h
    obtain ⟨q, h1, h2⟩ := exists_rat_btwn (show x - 5e-8 * |x| < x + 5e-8 * |x| by linarith)
    exact ⟨q, abs_le.2 ⟨by linarith, by linarith⟩⟩

/-- an artificial way of printing numbers: a rational approximation is written in unary as its index in an enumeration -/
noncomputable def unaryFmt (x : ℝ) : Str := List.replicate (Encodable.encode (exists_rat_close x).choose + 1) '1'
/-- and read back -/
noncomputable def unaryStrtod (s : Str) : Option ℝ := (Encodable.decode (α := ℚ) (s.length - 1)).map (fun q => (q : ℝ))

theorem unary_printf : Printf unaryFmt unaryStrtod where
  chars x c hc := by rw [unaryFmt, List.mem_replicate] at hc; rw [hc.2]; decide
  start x := ⟨'1', _, List.replicate_succ, by decide⟩
  value x := ⟨((exists_rat_close x).choose : ℝ), by simp [unaryFmt, unaryStrtod], (exists_rat_close x).choose_spec⟩

/-- the round trip holds for a snapshot with two particles, a header and a time -/
example : ∃ out, readSnapshot unaryStrtod ⟨1, 2, 3⟩
      (writeSnapshotText unaryFmt .aux [⟨1, 2, 3, 4, 5, 6, 7, 8, 9⟩, ⟨-1, 0, 1 / 3, 0, 0, 0, 1, 2, 0⟩] ⟨1, 2, 3⟩ "run 5".toList (some "0.5".toList)) (fun _ => '\x00') = some out ∧
    List.Forall₂ (ReadBack .aux) [⟨1, 2, 3, 4, 5, 6, 7, 8, 9⟩, ⟨-1, 0, 1 / 3, 0, 0, 0, 1, 2, 0⟩] out :=
  C101_text_roundtrip unary_printf .aux ⟨1, 2, 3⟩ (by norm_num) (by norm_num) (by norm_num) _ _ (by decide) _ (by rintro t ⟨⟩; decide) _

/-! ## where it fails -/

section
variable {V : Type} [Zero V] [Mul V] [Div V] {fmt : V → Str} {strtod : Str → Option V}

omit [Div V] in
/-- a text with fewer than four fields or not beginning with a number is skipped -/
theorem parseFields_skip (u : Units V) (f : Str) (fs : List Str) (h : numStart (f.headD '\x00') = false) : parseFields strtod u (f :: fs) = some none := by
  rw [parseFields]
  simp only [List.headD_cons]
  rw [if_pos (Or.inr h)]

theorem Tok_sep (D : Char → Prop) (a : Str) (hne : a ≠ []) (ha : ∀ c ∈ a, ¬ D c) (d : Char) (hd : D d) (z : Str) (l : List Str) (h : Tok D z l) : Tok D (a ++ d :: z) (a :: l) := by
  have h2 : Tok D (d :: z) l := by
    cases h with
    | nil g hg => exact Tok.nil _ (fun c hc => by rcases List.mem_cons.1 hc with rfl | hc; exacts [hd, hg c hc])
    | cons g t rest toks hg hne ht hsep hr =>
      have := Tok.cons (D := D) (d :: g) t rest toks (fun c hc => by rcases List.mem_cons.1 hc with rfl | hc; exacts [hd, hg c hc]) hne ht hsep hr
      simpa using this
  have := Tok.cons (D := D) [] a (d :: z) l (by simp) hne ha (by intro c r h; injection h with h1 _; rw [← h1]; exact hd) h2
  simpa using this

/-- C101, refutation of the round trip for non-finite coordinates: a particle whose x coordinate is printed as `nan` or `inf` is written to the file, but its line is silently skipped on reading (particles_io.cpp:111-114) -/
theorem C101_nonfinite_particle_lost (k : Kind) (u : Units V) (p : Part V) (h : fmt (p.x / u.lengthUnit) = ['n', 'a', 'n'] ∨ fmt (p.x / u.lengthUnit) = ['i', 'n', 'f']) (rest : List Str) :
    ∃ l, formatParticle fmt k u p = l ++ ['\n'] ∧ readLines strtod u (l :: rest) = readLines strtod u rest := by
  have key : ∀ (a z : Str), (a = ['n', 'a', 'n'] ∨ a = ['i', 'n', 'f']) → readLine strtod u (a ++ '\t' :: z) = some none := by
    intro a z ha
    have nc : ¬ (a ++ '\t' :: z ≠ [] ∧ isComment ((a ++ '\t' :: z).headD ' ') = true) := by
      rcases ha with rfl | rfl <;> simp [isComment]
    rw [readLine, if_neg nc]
    obtain ⟨toks, h1, hT⟩ := C01_splitString (a ++ '\t' :: z) "#;, \t".toList
    obtain ⟨tz, -, hz⟩ := C01_splitString z "#;, \t".toList
    have hA : a ≠ [] ∧ ∀ c ∈ a, ¬ c ∈ "#;, \t".toList := by rcases ha with rfl | rfl <;> exact ⟨by simp, by decide⟩
    have := C01_tokenisation_unique _ _ _ _ hT (Tok_sep (· ∈ "#;, \t".toList) a hA.1 hA.2 '\t' (by decide) z tz hz)
    rw [h1, this]
    refine parseFields_skip u a tz ?_
    rcases ha with rfl | rfl <;> decide
  have e : ∃ z, formatParticle fmt k u p = (fmt (p.x / u.lengthUnit) ++ '\t' :: z) ++ ['\n'] := by
    cases k
    · exact ⟨fmt (p.y / u.lengthUnit) ++ ['\t'] ++ fmt (p.z / u.lengthUnit) ++ ['\t'] ++ fmt (p.mass / u.massUnit), by simp [formatParticle]⟩
    · exact ⟨fmt (p.y / u.lengthUnit) ++ ['\t'] ++ fmt (p.z / u.lengthUnit) ++ ['\t'] ++ fmt (p.vx / u.velocityUnit) ++ ['\t'] ++ fmt (p.vy / u.velocityUnit) ++ ['\t'] ++
        fmt (p.vz / u.velocityUnit) ++ ['\t'] ++ fmt (p.mass / u.massUnit), by simp [formatParticle]⟩
    · exact ⟨fmt (p.y / u.lengthUnit) ++ ['\t'] ++ fmt (p.z / u.lengthUnit) ++ ['\t'] ++ fmt (p.vx / u.velocityUnit) ++ ['\t'] ++ fmt (p.vy / u.velocityUnit) ++ ['\t'] ++
        fmt (p.vz / u.velocityUnit) ++ ['\t'] ++ fmt (p.mass / u.massUnit) ++ ['\t'] ++ fmt (p.stellarMass / u.massUnit) ++ ['\t'] ++ fmt (p.stellarRadius / u.lengthUnit), by simp [formatParticle]⟩
  obtain ⟨z, e⟩ := e
  refine ⟨_, e, ?_⟩
  rw [readLines, key _ z h]
  cases readLines strtod u rest <;> rfl

omit [Div V] in
/-- the last line of a file which is not terminated by a newline is ignored: `getline` sets the end-of-file flag and the loop of particles_io.cpp:106 ends before the line is processed -/
theorem C101_unterminated_line_ignored (u : Units V) (c : Char) (s : Str) (hc : textByte c = true) (hs : '\n' ∉ c :: s) : readSnapshotText strtod u (c :: s) = some [] := by
  have : ∀ (s cur : Str), '\n' ∉ s → linesAux cur s = [] := by
    intro s
    induction s with
    | nil => intros; rfl
    | cons a s ih =>
      intro cur h
      rw [linesAux, if_neg (fun e => h (by simp [e])), ih _ (fun e => h (by simp [e]))]
  rw [readSnapshotText, if_pos hc, completeLines, this _ _ hs]
  rfl

example : readSnapshotText (V := ℚ) (fun _ => some 1) ⟨1, 1, 1⟩ "1 2 3 4".toList = some [] := C101_unterminated_line_ignored _ _ _ (by decide) (by decide)

/-- a header with a line break followed by numbers adds a particle to the snapshot: the text of the header is not sanitised (particles_io.cpp:84-85); here the array of particles is empty and the file contains one -/
theorem C101_header_injection (u : Units V) {a b c d : V} (h1 : strtod ['1'] = some a) (h2 : strtod ['2'] = some b) (h3 : strtod ['3'] = some c) (h4 : strtod ['4'] = some d) :
    readSnapshotText strtod u (writeSnapshotText fmt .pos [] u ['\n', '1', '\t', '2', '\t', '3', '\t', '4'] none) =
      some [⟨a * u.lengthUnit, b * u.lengthUnit, c * u.lengthUnit, 0, 0, 0, d * u.massUnit, d * u.massUnit, 0⟩] := by
  have fh : formatHeader .pos = ['#', 'x', '\t', 'y', '\t', 'z', '\t', 'm', 'a', 's', 's', '\n'] := by decide
  have e : writeSnapshotText fmt .pos [] u ['\n', '1', '\t', '2', '\t', '3', '\t', '4'] none =
      ['#'] ++ '\n' :: (['1', '\t', '2', '\t', '3', '\t', '4'] ++ '\n' :: (['#', 'x', '\t', 'y', '\t', 'z', '\t', 'm', 'a', 's', 's'] ++ '\n' :: [])) := by
    rw [writeSnapshotText, fh, if_pos (by simp)]
    simp [timeLine]
  rw [e]
  have rt : ∀ s, readSnapshotText strtod u (['#'] ++ s) = readLines strtod u (completeLines (['#'] ++ s)) := fun s => by
    rw [List.singleton_append, readSnapshotText, if_pos (by decide)]
  rw [rt]
  rw [completeLines_cons _ _ (by decide), completeLines_cons _ _ (by decide), completeLines_cons _ _ (by decide)]
  have l1 : readLine strtod u ['#'] = some none := by rw [readLine, if_pos ⟨by simp, by simp [isComment]⟩]
  have l3 : readLine strtod u ['#', 'x', '\t', 'y', '\t', 'z', '\t', 'm', 'a', 's', 's'] = some none := by rw [readLine, if_pos ⟨by simp, by simp [isComment]⟩]
  have l2 : readLine strtod u ['1', '\t', '2', '\t', '3', '\t', '4'] =
      some (some ⟨a * u.lengthUnit, b * u.lengthUnit, c * u.lengthUnit, 0, 0, 0, d * u.massUnit, d * u.massUnit, 0⟩) := by
    have nc : ¬ (['1', '\t', '2', '\t', '3', '\t', '4'] ≠ [] ∧ isComment (['1', '\t', '2', '\t', '3', '\t', '4'].headD ' ') = true) := by simp [isComment]
    have sp := tok_tabs [['1'], ['2'], ['3'], ['4']] (by decide) (by decide)
    simp only [joinStrings, List.cons_append, List.nil_append] at sp
    rw [readLine, if_neg nc, sp]
    have g1 : toDouble strtod ['1'] = some a := by simp [toDouble, h1]
    have g2 : toDouble strtod ['2'] = some b := by simp [toDouble, h2]
    have g3 : toDouble strtod ['3'] = some c := by simp [toDouble, h3]
    have g4 : toDouble strtod ['4'] = some d := by simp [toDouble, h4]
    rw [Option.bind_some, parse4 u (by decide) g1 g2 g3 g4]
  rw [readLines, l1, readLines, l2, readLines, l3]
  rfl

example : readSnapshotText (V := ℚ) (fun _ => some 1) ⟨2, 1, 1⟩ (writeSnapshotText (fun _ => []) .pos [] ⟨2, 1, 1⟩ ['\n', '1', '\t', '2', '\t', '3', '\t', '4'] none) =
    some [⟨1 * 2, 1 * 2, 1 * 2, 0, 0, 0, 1 * 1, 1 * 1, 0⟩] :=
  C101_header_injection (V := ℚ) (fmt := fun _ => []) ⟨2, 1, 1⟩ rfl rfl rfl rfl

/-- a file shorter than the 8 bytes examined by `readSnapshot` (particles_io.cpp:438-439) is recognised or not depending on the uninitialised rest of the buffer: an empty file is taken for a text file, for a binary one or for an unknown one -/
theorem C101_short_file_detection : ∃ p1 p2 p3 : ℕ → Char, detectFormat [] p1 = .text ∧ detectFormat [] p2 = .binary ∧ detectFormat [] p3 = .unknown :=
  ⟨fun _ => 'a', fun i => if i = 0 then '\x08' else '\x00', fun _ => '\x00', by decide, by decide, by decide⟩

end

end Verif.IO
