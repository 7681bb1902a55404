import Verif.Strings.Model
/-
Model of /repo/src/utils_config.cpp, utils_config.h: KeyValueMap and ConfigFile.
-/
namespace Verif.Config
open Verif.Strings

/-- The set of blank characters `" \t\n\r"` used throughout utils_config.cpp. -/
def BL : Str := [' ', '\t', '\n', '\r']

/-- utils_config.cpp:27-29 (and the same without the redundant `indx>0` in 38-40, 236-238):
remove leading blanks, unless the whole string is blank. -/
def lstrip (s : Str) : Str :=
  match findFirstNotOf BL s with
  | some i => s.drop i
  | none => s

/-- utils_config.cpp:35-37, 41-43, 239-241: remove trailing blanks, unless the whole string is blank. -/
def rstrip (s : Str) : Str :=
  match findLastNotOf BL s with
  | some i => if i + 1 < s.length then s.take (i+1) else s
  | none => s

/-- What one line of input becomes: a key-value pair or a comment/blank line. -/
inductive Line where
  | pair (key value : Str)
  | comment (text : Str)
deriving DecidableEq, Repr

/-- utils_config.cpp:53-55: a comment is kept up to the end of the line. -/
def commentOf (buffer : Str) : Line :=
  .comment (match findFirstOf ['\n', '\r'] buffer with
    | none => buffer
    | some i => buffer.take i)

/-- utils_config.cpp:26-55, the parsing part of `KeyValueMap::add` (argument `const char*`). -/
def parseLine (line : Str) : Line :=
  let buffer := lstrip (cstr line)
  match buffer.findIdx? (· == '='), buffer with
  | some indx, c :: _ =>
    if indx > 0 ∧ isComment c = false then
      let key := rstrip (buffer.take indx)
      let value := rstrip (lstrip (buffer.drop (indx+1)))
      .pair key value
    else commentOf buffer
  | _, _ => commentOf buffer

/-- utils_config.h, members of class KeyValueMap: `items` and `modified`. -/
structure KV where
  items : List (Str × Str)
  modified : Bool
deriving DecidableEq, Repr

/-- utils_config.h:28, default constructor. -/
def KV.empty : KV := ⟨[], false⟩

/-- the test `!items[ik].first.empty() && stringsEqual(items[ik].first, key)` -/
def matches' (key : Str) (it : Str × Str) : Bool := !it.1.isEmpty && stringsEqual it.1 key

/-- utils_config.cpp:59-65 -/
def KV.contains (m : KV) (key : Str) : Bool := m.items.any (matches' key)

/-- utils_config.cpp:67-73 -/
def KV.getString (m : KV) (key dflt : Str) : Str :=
  match m.items.find? (matches' key) with
  | some it => it.2
  | none => dflt

/-- utils_config.cpp:24-57, `add`; `none` is the exception (the map is left unchanged). -/
def KV.add (m : KV) (line : Str) : Option KV :=
  match parseLine line with
  | .pair k v => if m.contains k then none else some { m with items := m.items ++ [(k, v)] }
  | .comment t => some { m with items := m.items ++ [([], t)] }

/-- utils_config.cpp:10-14: construct from an array of lines. -/
def addAll : KV → List Str → Option KV
  | m, [] => some m
  | m, l :: ls => (m.add l).bind (addAll · ls)

def KV.fromLines (lines : List Str) : Option KV := addAll KV.empty lines

/-- utils_config.cpp:16-22: construct from one string with the given separators (default `", \t"`). -/
def KV.fromString (params whitespace : Str) : Option KV :=
  (splitString params whitespace).bind KV.fromLines

/-- utils_config.cpp:75-90; `none` is the exception. -/
def KV.getStringAlt (m : KV) (key1 key2 dflt : Str) : Option Str :=
  if m.contains key1 then
    if m.contains key2 then none else some (m.getString key1 [])
  else
    if m.contains key2 then some (m.getString key2 []) else some dflt

/-- utils_config.cpp:142-147: replace the value of the first match, or append. -/
def setItems (key value : Str) : List (Str × Str) → List (Str × Str)
  | [] => [(key, value)]
  | it :: rest => if matches' key it then (it.1, value) :: rest else it :: setItems key value rest

/-- utils_config.cpp:139-148 -/
def KV.set (m : KV) (key value : Str) : KV := ⟨setItems key value m.items, true⟩

/-- utils_config.cpp:177-182: erase the first match. -/
def unsetItems (key : Str) : List (Str × Str) → List (Str × Str)
  | [] => []
  | it :: rest => if matches' key it then rest else it :: unsetItems key rest

/-- utils_config.cpp:175-184 -/
def KV.unset (m : KV) (key : Str) : KV × Bool :=
  if m.contains key then (⟨unsetItems key m.items, true⟩, true) else (m, false)

/-- utils_config.h:74-78, `popString` -/
def KV.popString (m : KV) (key dflt : Str) : Str × KV := (m.getString key dflt, (m.unset key).1)

/-- utils_config.h:104-110, `popStringAlt`; `none` is the exception. -/
def KV.popStringAlt (m : KV) (key1 key2 dflt : Str) : Option (Str × KV) :=
  (m.getStringAlt key1 key2 dflt).map fun r => (r, ((m.unset key1).1.unset key2).1)

/-- utils_config.cpp:190-194: text of one stored item -/
def dumpItem (it : Str × Str) : Str := if it.1.isEmpty then it.2 else it.1 ++ '=' :: it.2

/-- utils_config.cpp:186-196 -/
def KV.dumpLines (m : KV) : List Str := m.items.map dumpItem

/-- utils_config.cpp:198-205 -/
def KV.dumpSingleLine (m : KV) : Str :=
  m.items.flatMap fun it => if it.1.isEmpty then [] else it.1 ++ '=' :: it.2 ++ [' ']

/-- utils_config.cpp:207-214 -/
def KV.keys (m : KV) : List Str := (m.items.filter (fun it => !it.1.isEmpty)).map (·.1)

/-! ### ConfigFile -/

/-- The data of class ConfigFile: named sections in order. -/
abbrev Sections := List (Str × KV)

/-- `while(std::getline(strm, buffer))` (utils_config.cpp:230): `cur` is what has been extracted of the
current line; a final line without terminating newline is returned if it is non-empty. -/
def getlinesAux : Str → Str → List Str
  | cur, [] => if cur.isEmpty then [] else [cur]
  | cur, c :: rest => if c = '\n' then cur :: getlinesAux [] rest else getlinesAux (cur ++ [c]) rest

def getlines (content : Str) : List Str := getlinesAux [] content

/-- Failure outcomes of reading a file: exception from `KeyValueMap::add`, or an invalid index. -/
inductive Err where
  | duplicate
  | badIndex
deriving DecidableEq, Repr

/-- utils_config.cpp:231-243: is the line a section header, and which name does it carry?
`none`: an ordinary line; `some []`: a header with an empty name (ignored, line 242-243). -/
def headerName (buffer : Str) : Option Str :=
  match findFirstNotOf BL buffer, buffer.findIdx? (· == ']') with
  | some indx, some indx1 =>
    if buffer[indx]? = some '[' ∧ indx1 > indx then
      some (rstrip (lstrip ((buffer.drop (indx+1)).take (indx1 - indx - 1))))
    else none
  | _, _ => none

/-- utils_config.cpp:245-248: the last section with a matching name, or -1. -/
def findSecIndex (secs : Sections) (name : Str) : Int :=
  (List.range secs.length).foldl
    (fun acc i => match secs[i]? with
      | some s => if stringsEqual s.1 name then (i : Int) else acc
      | none => acc) (-1)

/-- `sections[secIndex]` with a possibly negative index. -/
def atInt (secs : Sections) (i : Int) : Option (Str × KV) := if 0 ≤ i then secs[i.toNat]? else none

/-- utils_config.cpp:230-260, body of the reading loop. -/
def readLine (st : Sections × Int) (buffer : Str) : Except Err (Sections × Int) :=
  let (secs, idx) := st
  match headerName buffer with
  | some name =>
    if name.isEmpty then .ok (secs, idx) else
    let i := findSecIndex secs name
    if i < 0 then .ok (secs ++ [(name, KV.empty)], (secs.length : Int)) else .ok (secs, i)
  | none =>
    let (secs, idx) := if secs.isEmpty then ([([], KV.empty)], 0) else (secs, idx)
    match atInt secs idx with
    | none => .error .badIndex
    | some s =>
      match s.2.add buffer with
      | none => .error .duplicate
      | some kv => .ok (secs.set idx.toNat (s.1, kv), idx)

def readLines : Sections × Int → List Str → Except Err (Sections × Int)
  | st, [] => .ok st
  | st, l :: ls =>
    match readLine st l with
    | .error e => .error e
    | .ok st' => readLines st' ls

/-- utils_config.cpp:218-262: the constructor for an existing file with the given content. -/
def readFile (content : Str) : Except Err Sections := (readLines ([], -1) (getlines content)).map (·.1)

/-- utils_config.cpp:276-285: text written for one section; `isLast` is `is == sections.size()-1`. -/
def writeSection (isLast : Bool) (s : Str × KV) : Str :=
  let lines := s.2.dumpLines
  match lines.getLast? with
  | none => []
  | some last =>
    (if s.1.isEmpty then [] else '[' :: s.1 ++ [']', '\n']) ++
    lines.flatMap (fun l => l ++ ['\n']) ++
    (if !last.isEmpty && !isLast then ['\n'] else [])

/-- utils_config.cpp:275-286 -/
def writeSections : Sections → Str
  | [] => []
  | [s] => writeSection true s
  | s :: rest => writeSection false s ++ writeSections rest

/-- utils_config.cpp:264-288, the destructor: `none` if the file is not touched, otherwise its new
content (failure to open the file for writing is not modelled: it is ignored by the code). -/
def destroy (fileName : Str) (secs : Sections) : Option Str :=
  if secs.any (fun s => s.2.modified) ∧ fileName ≠ [] ∧ secs.length > 0 then some (writeSections secs) else none

/-- utils_config.cpp:290-296 -/
def listSections (secs : Sections) : List Str := secs.map (·.1)

/-- utils_config.cpp:298-306, non-const `findSection`: index of the (possibly new) section. -/
def findSection (secs : Sections) (name : Str) : Sections × Nat :=
  match secs.findIdx? (fun s => stringsEqual s.1 name) with
  | some i => (secs, i)
  | none => (secs ++ [(name, KV.empty)], secs.length)

/-- utils_config.cpp:308-315, const `findSection`; `none` is the exception. -/
def findSectionConst (secs : Sections) (name : Str) : Option KV :=
  (secs.find? (fun s => stringsEqual s.1 name)).map (·.2)

end Verif.Config
