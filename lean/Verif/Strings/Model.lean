/-
Model of the string utilities of Agama: /repo/src/utils.cpp, /repo/src/utils.h.
A C++ `std::string` is a `List Char` (each C++ `char` is represented by the Lean `Char` of the same
code 0..255; the theorems do not use the upper bound). `const char*` arguments are NUL-terminated:
`cstr` is what remains of a `std::string` after `.c_str()`.
-/
namespace Verif.Strings

abbrev Str := List Char

/-- C string view of a `std::string` (`.c_str()` read up to the first NUL). -/
def cstr (s : Str) : Str := s.takeWhile (· ≠ '\x00')

/-- `std::string::find_first_of(set)`: index of the first character belonging to the set. -/
def findFirstOf (delim s : Str) : Option Nat := s.findIdx? (fun c => delim.contains c)

/-- `std::string::find_first_not_of(set)`. -/
def findFirstNotOf (delim s : Str) : Option Nat := s.findIdx? (fun c => !delim.contains c)

/-- `std::string::find_last_not_of(set)`. -/
def findLastNotOf (delim s : Str) : Option Nat :=
  (s.reverse.findIdx? (fun c => !delim.contains c)).map (fun i => s.length - 1 - i)

/-- utils.cpp:474-485, the loop of `splitString`. `none` stands for the failure of
`assert(indx>0)` (in a release build: an endless loop pushing empty strings) or exhausted fuel. -/
def splitLoop (delim : Str) : Nat → Str → Option (List Str)
  | fuel, str =>
    if str.isEmpty then some [] else
    match fuel with
    | 0 => none
    | fuel+1 =>
      let indx := (findFirstOf delim str).getD str.length   -- npos -> str.size(), line 476-477
      if indx = 0 then none else                            -- assert, line 478
      let tok := str.take indx
      let str := str.drop indx
      match findFirstNotOf delim str with
      | none => some [tok]                                   -- break, line 482-483
      | some indx => (splitLoop delim fuel (str.drop indx)).map (tok :: ·)

/-- utils.cpp:464-487, `splitString`. -/
def splitString (src delim : Str) : Option (List Str) :=
  match findFirstNotOf delim src with
  | none => some []
  | some indx => splitLoop delim src.length (if indx > 0 then src.drop indx else src)

/-- `std::string::find(sub, pos)`: does `sub` occur at some position `≥ pos`? (only the existence
of a match is used in the code). -/
def findFrom (s sub : Str) (pos : Nat) : Bool :=
  (List.range (s.length + 1 - sub.length)).any fun i => decide (pos ≤ i) && ((s.drop i).take sub.length == sub)

/-- utils.cpp:489-492, `endsWithStr`. -/
def endsWithStr (str end_ : Str) : Bool :=
  decide (end_.length ≤ str.length) && findFrom str end_ (str.length - end_.length)

/-- `tolower` in the C locale. -/
def lower (c : Char) : Char := c.toLower

/-- utils.cpp:494-503, `stringsEqual(std::string, std::string)`. -/
def stringsEqual (str1 str2 : Str) : Bool :=
  let len := str1.length
  if len ≠ str2.length then false else
  (List.range len).all fun i =>
    match str1[i]?, str2[i]? with
    | some a, some b => lower a == lower b
    | _, _ => false

/-- Reading `str2[i]` of a NUL-terminated C string with content `s` (no NUL inside): the terminator
is at index `s.length`; `none` beyond it (out of bounds). -/
def cstrAt (s : Str) (i : Nat) : Option Char :=
  if i < s.length then s[i]? else if i = s.length then some '\x00' else none

/-- utils.cpp:509-511, the loop of the second overload, from position `i`;
outer `none` = out-of-bounds read; inner result = "no mismatch found". -/
def seqLoop (str2 : Str) : Str → Nat → Option Bool
  | [], _ => some true
  | a :: rest, i =>
    match cstrAt str2 i with
    | none => none
    | some b => if b = '\x00' ∨ lower a ≠ lower b then some false else seqLoop str2 rest (i+1)

/-- utils.cpp:505-513, `stringsEqual(std::string, const char*)`; `none` as the second argument is
NULL. Result `none` = out-of-bounds read. -/
def stringsEqualC (str1 : Str) (str2 : Option Str) : Option Bool :=
  match str2 with
  | none => some false
  | some s =>
    match seqLoop s str1 0 with
    | none => none
    | some false => some false
    | some true => (cstrAt s str1.length).map (· == '\x00')

/-- utils.h:195, `isComment`. -/
def isComment (c : Char) : Bool := c == '#' || c == ';'

/-- utils.cpp:273-292, `toBool` on a NUL-terminated string; `none` is the thrown exception. -/
def toBool : Str → Option Bool
  | [] => some false
  | c :: rest =>
    if c = '\x00' ∨ c = '0' ∨ c = 'n' ∨ c = 'N' ∨ c = 'f' ∨ c = 'F' then some false else
    if c = '1' ∨ c = 'y' ∨ c = 'Y' ∨ c = 't' ∨ c = 'T' then some true else
    if c = ' ' ∨ c = '\t' then toBool rest else none

/-- Result of `strtod` on a string that it could parse: a finite number (exact value of the
double; every finite double is rational), or a non-finite one. -/
inductive Parsed where
  | finite (num : Int) (den : Nat)
  | nonFinite

/-- `INT_MAX`, `INT_MIN`. -/
def INT_MAX : Int := 2147483647
def INT_MIN : Int := -2147483648

/-- utils.cpp:236-249, `toInt`. `strtod` is a parameter: `none` means that no character could be
parsed (`end == val`). A finite double is `num/den` exactly; comparisons are cross-multiplied,
`trunc` is truncated integer division. Result `none` is the exception. -/
def toInt (strtod : Str → Option Parsed) (val : Str) : Option Int :=
  if val = [] then some 0 else
  match strtod val with
  | none => none
  | some .nonFinite => none
  | some (.finite num den) =>
    if num ≥ INT_MAX * den then some INT_MAX else
    if num ≤ INT_MIN * den then some INT_MIN else
    some (num.tdiv den)

/-- utils.cpp:88-120, `demangleName`, with `demangle` standing for `abi::__cxa_demangle`
(`none` = failure status). `name` is the identifier being recorded (`none` if not in that regime);
the input is consumed character by character, the end of the list being the final NUL. -/
def isAlphanumeric (c : Char) : Bool :=
  ('A' ≤ c && c ≤ 'Z') || ('a' ≤ c && c ≤ 'z') || ('0' ≤ c && c ≤ '9') || c == '_'

def demangleLoop (demangle : Str → Option Str) : Option Str → Str → Str
  | none, [] => []
  | some nm, [] => (demangle nm).getD nm
  | name, c :: rest =>
    if isAlphanumeric c then demangleLoop demangle (some (name.getD [] ++ [c])) rest
    else (match name with | none => [] | some nm => (demangle nm).getD nm) ++ c ::
      demangleLoop demangle none rest

def demangleName (demangle : Str → Option Str) (input : Str) : Str := demangleLoop demangle none input

/-- utils.h:178-187, `toString(vector, separator)` with the element conversion as a parameter. -/
def joinStrings (sep : Char) : List Str → Str
  | [] => []
  | [s] => s
  | s :: rest => s ++ sep :: joinStrings sep rest

end Verif.Strings
