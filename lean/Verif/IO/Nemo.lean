import Verif.IO.Text
import Mathlib.Tactic.Ring
import Mathlib.Data.List.TakeWhile

/-! # C102: N-body snapshots in the NEMO format

Model of the writer in /repo/src/particles_io.cpp:136-311. A file is a list of bytes; writing succeeds. The conversion of a number to the four bytes of a `float` and the eight bytes of a `double` are parameters `f32`, `f64` (the theorem assumes only the number of bytes); an `int` has four bytes, the least significant first, on the machines considered here. -/

namespace Verif.IO.Nemo

open Verif.IO

abbrev Byte := UInt8

/-- the bytes of a non-negative int -/
def i32 (n : ℕ) : List Byte := [UInt8.ofNat (n % 256), UInt8.ofNat (n / 256 % 256), UInt8.ofNat (n / 65536 % 256), UInt8.ofNat (n / 16777216 % 256)]

/-- characters of the names as bytes -/
def chr (c : Char) : Byte := UInt8.ofNat c.toNat

/-- particles_io.cpp:203-207, putZString -/
def putZString (name : List Byte) : List Byte := [0] ++ name ++ [0]

/-- particles_io.cpp:154-160, putVal; `val` are the bytes of the value -/
def putVal (letter : Byte) (name val : List Byte) : List Byte := [146] ++ [9] ++ [letter] ++ putZString name ++ val

/-- particles_io.cpp:163-175, putArray; `data` are the bytes in memory beginning at the given pointer, of which size*sizeof(T) are written -/
def putArray (letter : Byte) (sizeofT : ℕ) (name : List Byte) (dim : List ℕ) (data : List Byte) : List Byte :=
  [146] ++ [11] ++ [letter] ++ putZString name ++ dim.flatMap i32 ++ i32 0 ++ data.take (dim.foldl (fun size d => size * d) 1 * sizeofT)

/-- particles_io.cpp:178-184, startLevel -/
def startLevel (name : List Byte) : List Byte := [146] ++ [9] ++ [chr '('] ++ putZString name

/-- particles_io.cpp:187-194, endLevel -/
def endLevel : List Byte := [146] ++ [9] ++ [chr ')'] ++ [0]

/-- particles_io.cpp:197-200, putString: the length does not include the terminating zero -/
def putString (name str : List Byte) : List Byte := putArray (chr 'c') 1 name [str.length] str

/-- "SnapShot" -/
def nSnapShot : List Byte := ['S', 'n', 'a', 'p', 'S', 'h', 'o', 't'].map chr
/-- "Parameters" -/
def nParameters : List Byte := ['P', 'a', 'r', 'a', 'm', 'e', 't', 'e', 'r', 's'].map chr
/-- "Nobj" -/
def nNobj : List Byte := ['N', 'o', 'b', 'j'].map chr
/-- "Time" -/
def nTime : List Byte := ['T', 'i', 'm', 'e'].map chr
/-- "Particles" -/
def nParticles : List Byte := ['P', 'a', 'r', 't', 'i', 'c', 'l', 'e', 's'].map chr
/-- "CoordSystem" -/
def nCoordSystem : List Byte := ['C', 'o', 'o', 'r', 'd', 'S', 'y', 's', 't', 'e', 'm'].map chr
/-- "Position" -/
def nPosition : List Byte := ['P', 'o', 's', 'i', 't', 'i', 'o', 'n'].map chr
/-- "Velocity" -/
def nVelocity : List Byte := ['V', 'e', 'l', 'o', 'c', 'i', 't', 'y'].map chr
/-- "Mass" -/
def nMass : List Byte := ['M', 'a', 's', 's'].map chr
/-- "Aux" -/
def nAux : List Byte := ['A', 'u', 'x'].map chr
/-- "Eps" -/
def nEps : List Byte := ['E', 'p', 's'].map chr
/-- "History" -/
def nHistory : List Byte := ['H', 'i', 's', 't', 'o', 'r', 'y'].map chr

section
variable (f32 f64 : ℝ → List Byte)

/-- particles_io.cpp:225-233, 241-251, 260-272: the array `pos` in memory (three floats per particle) -/
noncomputable def memPos (u : Units ℝ) (points : List (Part ℝ)) : List Byte := points.flatMap fun p => f32 (p.x / u.lengthUnit) ++ f32 (p.y / u.lengthUnit) ++ f32 (p.z / u.lengthUnit)
/-- the array `vel`: particles_io.cpp:241-251, 260-272 -/
noncomputable def memVel (u : Units ℝ) (points : List (Part ℝ)) : List Byte := points.flatMap fun p => f32 (p.vx / u.velocityUnit) ++ f32 (p.vy / u.velocityUnit) ++ f32 (p.vz / u.velocityUnit)
/-- the array `mass`: particles_io.cpp:225-233, 241-251, 260-272 -/
noncomputable def memMass (u : Units ℝ) (points : List (Part ℝ)) : List Byte := points.flatMap fun p => f32 (p.mass / u.massUnit)
/-- the array `aux`: particles_io.cpp:260-272 -/
noncomputable def memAux (u : Units ℝ) (points : List (Part ℝ)) : List Byte := points.flatMap fun p => f32 (p.stellarMass / u.massUnit)
/-- the array `eps`: particles_io.cpp:260-272 -/
noncomputable def memEps (u : Units ℝ) (points : List (Part ℝ)) : List Byte := points.flatMap fun p => f32 (p.stellarRadius / u.lengthUnit)

/-- particles_io.cpp:222-278, the three specialisations of writeParticles -/
noncomputable def writeParticles (k : Kind) (points : List (Part ℝ)) (u : Units ℝ) : List Byte :=
  let nbody := points.length
  match k with
  | .pos =>
    putArray (chr 'f') 4 nPosition [nbody, 3] (memPos f32 u points) ++
    putArray (chr 'f') 4 nMass [nbody] (memMass f32 u points)
  | .posvel =>
    putArray (chr 'f') 4 nPosition [nbody, 3] (memPos f32 u points) ++
    putArray (chr 'f') 4 nVelocity [nbody, 3] (memVel f32 u points) ++
    putArray (chr 'f') 4 nMass [nbody] (memMass f32 u points)
  | .aux =>
    putArray (chr 'f') 4 nPosition [nbody, 3] (memPos f32 u points) ++
    putArray (chr 'f') 4 nVelocity [nbody, 3] (memVel f32 u points) ++
    putArray (chr 'f') 4 nMass [nbody] (memMass f32 u points) ++
    putArray (chr 'f') 4 nAux [nbody] (memAux f32 u points) ++
    putArray (chr 'f') 4 nEps [nbody] (memEps f32 u points)

/-- particles_io.cpp:142: COORDSYS -/
def COORDSYS : ℕ := 66306

/-- particles_io.cpp:280-311, writeSnapshotNEMO; `time` is the time in the external units, or `none` if it is not finite; `putString("History", header.c_str())` cuts the header at the first zero byte -/
noncomputable def writeSnapshotNEMO (k : Kind) (points : List (Part ℝ)) (u : Units ℝ) (header : List Byte) (time : Option ℝ) : List Byte :=
  (if header ≠ [] then putString nHistory (header.takeWhile (· ≠ 0)) else []) ++
  startLevel nSnapShot ++
  startLevel nParameters ++
  putVal (chr 'i') nNobj (i32 points.length) ++
  (match time with
   | some t => putVal (chr 'd') nTime (f64 t)
   | none => []) ++
  endLevel ++
  startLevel nParticles ++
  putVal (chr 'i') nCoordSystem (i32 COORDSYS) ++
  writeParticles f32 k points u ++
  endLevel ++
  endLevel

end

/-! ## specification: how a NEMO reader (filestruct) decodes a file -/

/-- items of a NEMO file -/
inductive Item
  | scalar (type : Char) (tag : List Byte) (data : List Byte)
  | array (type : Char) (tag : List Byte) (dims : List ℕ) (data : List Byte)
  | beginSet (tag : List Byte)
  | endSet
deriving DecidableEq

/-- a zero-terminated string -/
def getString : List Byte → Option (List Byte × List Byte)
  | [] => none
  | b :: bs => if b = 0 then some ([], bs) else (getString bs).map fun r => (b :: r.1, r.2)

/-- a 32-bit little-endian number -/
def getInt : List Byte → Option (ℕ × List Byte)
  | a :: b :: c :: d :: bs => some (a.toNat + 256 * b.toNat + 65536 * c.toNat + 16777216 * d.toNat, bs)
  | _ => none

theorem getInt_length (bs : List Byte) (n : ℕ) (r : List Byte) (h : getInt bs = some (n, r)) : r.length < bs.length := by
  match bs, h with
  | a :: b :: c :: d :: bs, h =>
    simp only [getInt, Option.some.injEq, Prod.mk.injEq] at h
    rw [← h.2]
    simp only [List.length_cons]
    omega

/-- the dimensions of an array, up to a zero -/
def getDims (bs : List Byte) : Option (List ℕ × List Byte) :=
  match h : getInt bs with
  | none => none
  | some (0, r) => some ([], r)
  | some (n + 1, r) => (getDims r).map fun q => ((n + 1) :: q.1, q.2)
termination_by bs.length
decreasing_by exact getInt_length _ _ _ h

/-- the given number of bytes -/
def getBytes (n : ℕ) (bs : List Byte) : Option (List Byte × List Byte) := if n ≤ bs.length then some (bs.take n, bs.drop n) else none

/-- the size of the types of data -/
def sizeOfType (t : List Byte) : Option (Char × ℕ) :=
  if t = [chr 'c'] then some ('c', 1) else if t = [chr 'i'] then some ('i', 4) else if t = [chr 'f'] then some ('f', 4) else if t = [chr 'd'] then some ('d', 8) else none

/-- one item: a two-byte magic number (single value or array), the type, the tag (absent at the end of a set), the dimensions of an array, the data -/
def getItem : List Byte → Option (Item × List Byte)
  | m :: k :: bs =>
    if m ≠ 146 then none else do
    let (type, bs) ← getString bs
    if k = 9 then
      if type = [chr ')'] then return (.endSet, bs) else do
      let (tag, bs) ← getString bs
      if type = [chr '('] then return (.beginSet tag, bs) else do
      let (c, size) ← sizeOfType type
      let (data, bs) ← getBytes size bs
      return (.scalar c tag data, bs)
    else if k = 11 then do
      let (tag, bs) ← getString bs
      let (c, size) ← sizeOfType type
      let (dims, bs) ← getDims bs
      let (data, bs) ← getBytes (dims.prod * size) bs
      return (.array c tag dims data, bs)
    else none
  | _ => none

/-- the file is a sequence of items -/
inductive Decodes : List Byte → List Item → Prop
  | nil : Decodes [] []
  | cons {bs rest : List Byte} {i : Item} {is : List Item} (h : getItem bs = some (i, rest)) (hr : Decodes rest is) : Decodes bs (i :: is)

/-- the content of a file has only one meaning -/
theorem Decodes.unique {bs : List Byte} {a b : List Item} (h1 : Decodes bs a) (h2 : Decodes bs b) : a = b := by
  induction h1 generalizing b with
  | nil =>
    cases h2 with
    | nil => rfl
    | cons h _ => simp [getItem] at h
  | cons h _ ih =>
    cases h2 with
    | nil => simp [getItem] at h
    | cons h' hr' =>
      rw [h] at h'
      simp only [Option.some.injEq, Prod.mk.injEq] at h'
      obtain ⟨rfl, rfl⟩ := h'
      rw [ih hr']

/-- the arrays which must be in the file, in the order of particles -/
noncomputable def arrays (f32 : ℝ → List Byte) (k : Kind) (points : List (Part ℝ)) (u : Units ℝ) : List Item :=
  let n := points.length
  let pos := Item.array 'f' nPosition [n, 3] (points.flatMap fun p => [p.x / u.lengthUnit, p.y / u.lengthUnit, p.z / u.lengthUnit].flatMap f32)
  let vel := Item.array 'f' nVelocity [n, 3] (points.flatMap fun p => [p.vx / u.velocityUnit, p.vy / u.velocityUnit, p.vz / u.velocityUnit].flatMap f32)
  let mass := Item.array 'f' nMass [n] (points.flatMap fun p => f32 (p.mass / u.massUnit))
  let aux := Item.array 'f' nAux [n] (points.flatMap fun p => f32 (p.stellarMass / u.massUnit))
  let eps := Item.array 'f' nEps [n] (points.flatMap fun p => f32 (p.stellarRadius / u.lengthUnit))
  match k with
  | .pos => [pos, mass]
  | .posvel => [pos, vel, mass]
  | .aux => [pos, vel, mass, aux, eps]

/-- the whole snapshot -/
noncomputable def snapshot (f32 f64 : ℝ → List Byte) (k : Kind) (points : List (Part ℝ)) (u : Units ℝ) (header : List Byte) (time : Option ℝ) : List Item :=
  (if header = [] then [] else [Item.array 'c' nHistory [header.length] header]) ++
  [Item.beginSet nSnapShot, Item.beginSet nParameters, Item.scalar 'i' nNobj (i32 points.length)] ++
  (match time with
   | some t => [Item.scalar 'd' nTime (f64 t)]
   | none => []) ++
  [Item.endSet, Item.beginSet nParticles, Item.scalar 'i' nCoordSystem (i32 66306)] ++ arrays f32 k points u ++ [Item.endSet, Item.endSet]

/-! ## proofs -/

theorem getString_append (s r : List Byte) (h : (0 : Byte) ∉ s) : getString (s ++ 0 :: r) = some (s, r) := by
  induction s with
  | nil => simp [getString]
  | cons a s ih =>
    have ha : a ≠ 0 := fun e => h (by simp [e])
    rw [List.cons_append, getString, if_neg ha, ih (fun e => h (by simp [e]))]
    rfl

theorem getInt_i32 (n : ℕ) (h : n < 2 ^ 31) (r : List Byte) : getInt (i32 n ++ r) = some (n, r) := by
  simp only [i32, List.cons_append, List.nil_append, getInt]
  congr 2
  simp only [UInt8.toNat_ofNat']
  omega

theorem getDims_append (dims : List ℕ) (h : ∀ d ∈ dims, 0 < d ∧ d < 2 ^ 31) (r : List Byte) : getDims (dims.flatMap i32 ++ (i32 0 ++ r)) = some (dims, r) := by
  induction dims with
  | nil =>
    rw [getDims]
    rw [List.flatMap_nil, List.nil_append]
    split
    · next e => rw [getInt_i32 0 (by norm_num)] at e; cases e
    · next e => rw [getInt_i32 0 (by norm_num)] at e; simp at e; rw [e]
    · next e => rw [getInt_i32 0 (by norm_num)] at e; simp at e
  | cons d ds ih =>
    have hd := h d (by simp)
    have ih' := ih (fun x hx => h x (by simp [hx]))
    rw [getDims]
    rw [List.flatMap_cons, List.append_assoc]
    split
    · next e => rw [getInt_i32 d hd.2] at e; cases e
    · next e => rw [getInt_i32 d hd.2] at e; simp at e; omega
    · next n r' e =>
      rw [getInt_i32 d hd.2] at e
      simp only [Option.some.injEq, Prod.mk.injEq] at e
      rw [← e.2, ih', e.1]
      rfl

theorem getBytes_append (n : ℕ) (d r : List Byte) (h : d.length = n) : getBytes n (d ++ r) = some (d, r) := by
  rw [getBytes, if_pos (by simp [h])]
  simp [← h]

theorem sz (c : Char) (n : ℕ) (h : (c = 'c' ∧ n = 1) ∨ (c = 'i' ∧ n = 4) ∨ (c = 'f' ∧ n = 4) ∨ (c = 'd' ∧ n = 8)) :
    sizeOfType [chr c] = some (c, n) ∧ chr c ≠ 0 ∧ chr c ≠ chr '(' ∧ chr c ≠ chr ')' := by
  rcases h with ⟨rfl, rfl⟩ | ⟨rfl, rfl⟩ | ⟨rfl, rfl⟩ | ⟨rfl, rfl⟩ <;> decide

theorem getItem_val (c : Char) (n : ℕ) (h : (c = 'c' ∧ n = 1) ∨ (c = 'i' ∧ n = 4) ∨ (c = 'f' ∧ n = 4) ∨ (c = 'd' ∧ n = 8)) (name val r : List Byte) (hn : (0 : Byte) ∉ name) (hv : val.length = n) :
    getItem (putVal (chr c) name val ++ r) = some (.scalar c name val, r) := by
  obtain ⟨s1, s2, s3, s4⟩ := sz c n h
  have e : putVal (chr c) name val ++ r = 146 :: 9 :: ([chr c] ++ 0 :: (name ++ 0 :: (val ++ r))) := by simp [putVal, putZString]
  rw [e, getItem, getString_append [chr c] _ (by simpa using s2.symm)]
  simp [getString_append name _ hn, s1, s3, s4, getBytes_append n val r hv]

theorem getItem_start (name r : List Byte) (hn : (0 : Byte) ∉ name) : getItem (startLevel name ++ r) = some (.beginSet name, r) := by
  have e : startLevel name ++ r = 146 :: 9 :: ([chr '('] ++ 0 :: (name ++ 0 :: r)) := by simp [startLevel, putZString]
  rw [e, getItem, getString_append [chr '('] _ (by decide)]
  simp [getString_append name _ hn, show chr '(' ≠ chr ')' by decide]

theorem getItem_end (r : List Byte) : getItem (endLevel ++ r) = some (.endSet, r) := by
  have e : endLevel ++ r = 146 :: 9 :: ([chr ')'] ++ 0 :: r) := by simp [endLevel]
  rw [e, getItem, getString_append [chr ')'] _ (by decide)]
  simp

theorem getItem_array (c : Char) (n : ℕ) (h : (c = 'c' ∧ n = 1) ∨ (c = 'i' ∧ n = 4) ∨ (c = 'f' ∧ n = 4) ∨ (c = 'd' ∧ n = 8)) (name : List Byte) (dims : List ℕ) (data r : List Byte)
    (hn : (0 : Byte) ∉ name) (hd : ∀ d ∈ dims, 0 < d ∧ d < 2 ^ 31) (hv : data.length = dims.prod * n) :
    getItem (putArray (chr c) n name dims data ++ r) = some (.array c name dims data, r) := by
  obtain ⟨s1, s2, s3, s4⟩ := sz c n h
  have t : data.take (dims.foldl (fun size d => size * d) 1 * n) = data := by
    apply List.take_of_length_le
    rw [hv, List.prod_eq_foldl]
  have e : putArray (chr c) n name dims data ++ r = 146 :: 11 :: ([chr c] ++ 0 :: (name ++ 0 :: (dims.flatMap i32 ++ (i32 0 ++ (data ++ r))))) := by
    rw [putArray, t]
    simp [putZString]
  rw [e, getItem, getString_append [chr c] _ (by simpa using s2.symm)]
  simp [getString_append name _ hn, s1, getDims_append dims hd, getBytes_append _ data r hv]

theorem length_flatMap_const {α β : Type} (l : List α) (f : α → List β) (m : ℕ) (h : ∀ a, (f a).length = m) : (l.flatMap f).length = l.length * m := by
  induction l with
  | nil => simp
  | cons a l ih => simp [h, ih]; ring

section
variable {f32 f64 : ℝ → List Byte}

theorem decodes_particles (h4 : ∀ x, (f32 x).length = 4) (k : Kind) (points : List (Part ℝ)) (u : Units ℝ) (hn : 0 < points.length) (hn' : points.length < 2 ^ 31)
    (rest : List Byte) (is : List Item) (hr : Decodes rest is) : Decodes (writeParticles f32 k points u ++ rest) (arrays f32 k points u ++ is) := by
  have d2 : ∀ d ∈ [points.length, 3], 0 < d ∧ d < 2 ^ 31 := by
    intro d hd
    simp only [List.mem_cons, List.not_mem_nil, or_false] at hd
    rcases hd with rfl | rfl
    · exact ⟨hn, hn'⟩
    · norm_num
  have d1 : ∀ d ∈ [points.length], 0 < d ∧ d < 2 ^ 31 := by
    intro d hd
    simp only [List.mem_singleton] at hd
    rw [hd]
    exact ⟨hn, hn'⟩
  have A3 : ∀ (name : List Byte) (f g h : Part ℝ → ℝ) (r : List Byte), (0 : Byte) ∉ name →
      getItem (putArray (chr 'f') 4 name [points.length, 3] (points.flatMap fun p => f32 (f p) ++ f32 (g p) ++ f32 (h p)) ++ r) =
        some (.array 'f' name [points.length, 3] (points.flatMap fun p => [f p, g p, h p].flatMap f32), r) := by
    intro name f g h r h0
    rw [getItem_array 'f' 4 (by simp) name _ _ r h0 d2]
    · simp
    · rw [length_flatMap_const _ _ 12 (fun p => by simp [h4])]
      simp
      ring
  have A1 : ∀ (name : List Byte) (f : Part ℝ → ℝ) (r : List Byte), (0 : Byte) ∉ name →
      getItem (putArray (chr 'f') 4 name [points.length] (points.flatMap fun p => f32 (f p)) ++ r) = some (.array 'f' name [points.length] (points.flatMap fun p => f32 (f p)), r) := by
    intro name f r h0
    rw [getItem_array 'f' 4 (by simp) name _ _ r h0 d1]
    rw [length_flatMap_const _ _ 4 (fun p => by simp [h4])]
    simp
  cases k
  · simp only [writeParticles, arrays, List.append_assoc, List.cons_append, List.nil_append]
    refine .cons (A3 _ _ _ _ _ (by decide)) (.cons (A1 _ _ _ (by decide)) hr)
  · simp only [writeParticles, arrays, List.append_assoc, List.cons_append, List.nil_append]
    refine .cons (A3 _ _ _ _ _ (by decide)) (.cons (A3 _ _ _ _ _ (by decide)) (.cons (A1 _ _ _ (by decide)) hr))
  · simp only [writeParticles, arrays, List.append_assoc, List.cons_append, List.nil_append]
    refine .cons (A3 _ _ _ _ _ (by decide)) (.cons (A3 _ _ _ _ _ (by decide)) (.cons (A1 _ _ _ (by decide)) (.cons (A1 _ _ _ (by decide)) (.cons (A1 _ _ _ (by decide)) hr))))

/-- C102: a snapshot written in the NEMO format is decoded by a NEMO reader as the history, the number of particles, the time, and the arrays of the attributes of all particles in the right order and dimensions, for any non-empty array of particles -/
theorem C102_nemo_file (h4 : ∀ x, (f32 x).length = 4) (h8 : ∀ x, (f64 x).length = 8) (k : Kind) (points : List (Part ℝ)) (u : Units ℝ) (hn : 0 < points.length) (hn' : points.length < 2 ^ 31)
    (header : List Byte) (hh : (0 : Byte) ∉ header) (hl : header.length < 2 ^ 31) (time : Option ℝ) :
    Decodes (writeSnapshotNEMO f32 f64 k points u header time) (snapshot f32 f64 k points u header time) := by
  have body : Decodes (startLevel nSnapShot ++ (startLevel nParameters ++ (putVal (chr 'i') nNobj (i32 points.length) ++
      ((match time with | some t => putVal (chr 'd') nTime (f64 t) | none => []) ++
      (endLevel ++ (startLevel nParticles ++ (putVal (chr 'i') nCoordSystem (i32 COORDSYS) ++ (writeParticles f32 k points u ++ (endLevel ++ (endLevel ++ []))))))))))
      (Item.beginSet nSnapShot :: Item.beginSet nParameters :: Item.scalar 'i' nNobj (i32 points.length) :: ((match time with | some t => [Item.scalar 'd' nTime (f64 t)] | none => []) ++
        (Item.endSet :: Item.beginSet nParticles :: Item.scalar 'i' nCoordSystem (i32 66306) :: (arrays f32 k points u ++ [Item.endSet, Item.endSet])))) := by
    refine .cons (getItem_start _ _ (by decide)) (.cons (getItem_start _ _ (by decide)) (.cons (getItem_val 'i' 4 (by simp) _ _ _ (by decide) rfl) ?_))
    have tail : Decodes (endLevel ++ (startLevel nParticles ++ (putVal (chr 'i') nCoordSystem (i32 COORDSYS) ++ (writeParticles f32 k points u ++ (endLevel ++ (endLevel ++ []))))))
        (Item.endSet :: Item.beginSet nParticles :: Item.scalar 'i' nCoordSystem (i32 66306) :: (arrays f32 k points u ++ [Item.endSet, Item.endSet])) :=
      .cons (getItem_end _) (.cons (getItem_start _ _ (by decide)) (.cons (getItem_val 'i' 4 (by simp) _ _ _ (by decide) rfl)
        (decodes_particles h4 k points u hn hn' _ _ (.cons (getItem_end _) (.cons (getItem_end _) .nil)))))
    cases time with
    | none => exact tail
    | some t => exact .cons (getItem_val 'd' 8 (by simp) _ _ _ (by decide) (h8 t)) tail
  have tw : header.takeWhile (· ≠ 0) = header := by
    rw [List.takeWhile_eq_self_iff]
    intro b hb
    simp only [decide_eq_true_eq]
    rintro rfl
    exact hh hb
  unfold writeSnapshotNEMO snapshot
  rw [tw]
  simp only [List.append_assoc, List.cons_append, List.nil_append]
  by_cases he : header = []
  · simpa [he] using body
  · rw [if_pos he, if_neg he]
    refine .cons (getItem_array 'c' 1 (by simp) _ _ _ _ (by decide) ?_ (by simp)) (by simpa using body)
    intro d hd
    rw [List.mem_singleton] at hd
    rw [hd]
    exact ⟨List.length_pos_iff.2 he, hl⟩

example : Decodes (writeSnapshotNEMO (fun _ => [0, 0, 0, 0]) (fun _ => List.replicate 8 0) .aux [⟨1, 2, 3, 4, 5, 6, 7, 8, 9⟩, ⟨-1, 0, 1 / 3, 0, 0, 0, 1, 2, 0⟩] ⟨1, 2, 3⟩ [65, 66] (some 1))
    (snapshot (fun _ => [0, 0, 0, 0]) (fun _ => List.replicate 8 0) .aux [⟨1, 2, 3, 4, 5, 6, 7, 8, 9⟩, ⟨-1, 0, 1 / 3, 0, 0, 0, 1, 2, 0⟩] ⟨1, 2, 3⟩ [65, 66] (some 1)) :=
  C102_nemo_file (by simp) (by simp) .aux _ _ (by simp) (by simp) _ (by decide) (by simp) _

theorem Decodes.step {bs rest : List Byte} {i : Item} {is : List Item} (h : Decodes bs is) (hi : getItem bs = some (i, rest)) : ∃ is', Decodes rest is' := by
  cases h with
  | nil => simp [getItem] at hi
  | cons h hr =>
    rw [h] at hi
    simp only [Option.some.injEq, Prod.mk.injEq] at hi
    exact ⟨_, hi.2 ▸ hr⟩

/-- C102, refutation for an empty array of particles: the dimensions 0, 3 of the array of positions end the list of dimensions at once, and the file cannot be decoded -/
theorem C102_nemo_empty_snapshot_undecodable (k : Kind) (u : Units ℝ) : ¬ ∃ is, Decodes (writeSnapshotNEMO f32 f64 k [] u [] none) is := by
  rintro ⟨is, h⟩
  have e : ∃ r, writeParticles f32 k [] u = 146 :: 11 :: ([chr 'f'] ++ 0 :: (nPosition ++ 0 :: (([] : List ℕ).flatMap i32 ++ (i32 0 ++ (i32 3 ++ 0 :: r))))) := by
    cases k <;> exact ⟨_, rfl⟩
  obtain ⟨r, e⟩ := e
  have e2 : writeSnapshotNEMO f32 f64 k [] u [] none = startLevel nSnapShot ++ (startLevel nParameters ++ (putVal (chr 'i') nNobj (i32 0) ++
      (endLevel ++ (startLevel nParticles ++ (putVal (chr 'i') nCoordSystem (i32 COORDSYS) ++
        146 :: 11 :: ([chr 'f'] ++ 0 :: (nPosition ++ 0 :: (([] : List ℕ).flatMap i32 ++ (i32 0 ++ (i32 3 ++ 0 :: (r ++ (endLevel ++ endLevel)))))))))))) := by
    unfold writeSnapshotNEMO
    rw [e]
    simp
  rw [e2] at h
  obtain ⟨_, h⟩ := h.step (getItem_start _ _ (by decide))
  obtain ⟨_, h⟩ := h.step (getItem_start _ _ (by decide))
  obtain ⟨_, h⟩ := h.step (getItem_val 'i' 4 (by simp) _ _ _ (by decide) rfl)
  obtain ⟨_, h⟩ := h.step (getItem_end _)
  obtain ⟨_, h⟩ := h.step (getItem_start _ _ (by decide))
  obtain ⟨_, h⟩ := h.step (getItem_val 'i' 4 (by simp) _ _ _ (by decide) rfl)
  have g : getItem (146 :: 11 :: ([chr 'f'] ++ 0 :: (nPosition ++ 0 :: (([] : List ℕ).flatMap i32 ++ (i32 0 ++ (i32 3 ++ 0 :: (r ++ (endLevel ++ endLevel)))))))) =
      some (.array 'f' nPosition [] (i32 3), 0 :: (r ++ (endLevel ++ endLevel))) := by
    obtain ⟨s1, -, -, -⟩ := sz 'f' 4 (by simp)
    rw [getItem, getString_append [chr 'f'] _ (by decide)]
    have := getDims_append [] (by simp) (i32 3 ++ 0 :: (r ++ (endLevel ++ endLevel)))
    simp only [List.flatMap_nil, List.nil_append] at this ⊢
    simp [getString_append nPosition _ (by decide), s1, this, getBytes_append 4 (i32 3) _ rfl]
  obtain ⟨is', h⟩ := h.step g
  cases h with
  | cons h _ =>
    cases hr : r ++ (endLevel ++ endLevel) with
    | nil => simp [endLevel] at hr
    | cons a l => rw [hr] at h; simp [getItem] at h

end

end Verif.IO.Nemo
