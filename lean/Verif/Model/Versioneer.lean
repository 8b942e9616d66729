import Verif.Model.Version
import Mathlib.Data.List.Sort

/-!
# Model of the release part of `versioneer.py`

`setup.py` asks `versioneer.get_version()` for the version number and takes its commands from `versioneer.get_cmdclass()`.
The commands `sdist` and `build_py` compute the version and write it into the copy of `snompy/_version.py` that is
distributed; the functions are in lines 1398–1442 and 1703–2000 of `versioneer.py`.  The functions of `versioneer.py` that
read keywords, ask git and render versions are the ones of `snompy/_version.py` (`Verif/Model/Version.lean`).

Simplifications, besides the ones of `Verif/Model/Version.lean`: the root directory and the configuration are given (the
project is built in the directory of `setup.py`, and `setup.cfg` has the section `[versioneer]`); a text file is a list of
characters (what is written below is ASCII, `Props.C96_ascii`, so every usual encoding does); `json.loads` reads objects
whose values are strings, booleans and `null`, and raises an error for other values; `JSONDecodeError`, which is a subclass of
`ValueError`, is `VErr.valueError`.
-/

namespace Snompy.Version

/-! ## JSON -/

/-- The values that version dictionaries hold. -/
inductive JVal
  | null
  | bool (b : Bool)
  | str (s : Str)
  deriving DecidableEq

/-- A dictionary: its items in the order of insertion. -/
abbrev PyDict := List (Str × JVal)

/-- `d[key] = value`. -/
def setItem (d : PyDict) (k : Str) (v : JVal) : PyDict :=
  if k ∈ d.map Prod.fst then d.map fun kv => if kv.1 = k then (k, v) else kv else d ++ [(k, v)]

/-- `"{:x}".format(n)` for one digit. -/
def hexDigit (n : ℕ) : Char := if n < 10 then Char.ofNat (48 + n) else Char.ofNat (87 + n)

/-- `'\\u{0:04x}'.format(n)`. -/
def uEscape (n : ℕ) : Str :=
  ['\\', 'u', hexDigit (n / 4096 % 16), hexDigit (n / 256 % 16), hexDigit (n / 16 % 16), hexDigit (n % 16)]

/-- `json.encoder.py_encode_basestring_ascii` for one character. -/
def jsonChar (c : Char) : Str :=
  let n := c.toNat
  if c = '"' then ['\\', '"']
  else if c = '\\' then ['\\', '\\']
  else if c = '\n' then ['\\', 'n']
  else if c = '\r' then ['\\', 'r']
  else if c = '\t' then ['\\', 't']
  else if n = 12 then ['\\', 'f']
  else if n = 8 then ['\\', 'b']
  else if 32 ≤ n ∧ n ≤ 126 then [c]
  else if n < 0x10000 then uEscape n
  else
    let m := n - 0x10000
    uEscape (0xd800 + m / 1024 % 1024) ++ uEscape (0xdc00 + m % 1024)

/-- A string literal of JSON. -/
def jsonStr (s : Str) : Str := '"' :: (s.flatMap jsonChar ++ ['"'])

def jsonVal : JVal → Str
  | .null => "null".toList
  | .bool true => "true".toList
  | .bool false => "false".toList
  | .str s => jsonStr s

/-- One member of an object, with `indent=1` and `separators=(",", ": ")`. -/
def jsonMember (kv : Str × JVal) : Str := ' ' :: (jsonStr kv.1 ++ ": ".toList ++ jsonVal kv.2)

/-- The members of an object: each on its own line. -/
def jsonMembers : PyDict → Str
  | [] => []
  | [kv] => jsonMember kv
  | kv :: rest => jsonMember kv ++ ",\n".toList ++ jsonMembers rest

/-- `sorted(d.items())`: the keys are different. -/
def sortKeys (d : PyDict) : PyDict := d.insertionSort fun a b => strLe a.1 b.1 = true

/-- `json.dumps(d, sort_keys=True, indent=1, separators=(",", ": "))`. -/
def jsonDumps (d : PyDict) : Str :=
  if d.isEmpty then "{}".toList
  else "{\n".toList ++ jsonMembers (sortKeys d) ++ "\n}".toList

/-- The value of a hexadecimal digit of either case. -/
def hexVal (c : Char) : Option ℕ :=
  let n := c.toNat
  if 48 ≤ n ∧ n ≤ 57 then some (n - 48)
  else if 97 ≤ n ∧ n ≤ 102 then some (n - 87)
  else if 65 ≤ n ∧ n ≤ 70 then some (n - 55)
  else none

/-- The number after `\u`. -/
def hexVal4 (a b c d : Char) : Option ℕ := do
  let a ← hexVal a
  let b ← hexVal b
  let c ← hexVal c
  let d ← hexVal d
  pure (4096 * a + 256 * b + 16 * c + d)

/-- The character after a backslash in JSON. -/
def jsonEscape (c : Char) : Option Char :=
  if c = '"' then some '"'
  else if c = '\\' then some '\\'
  else if c = '/' then some '/'
  else if c = 'b' then some (Char.ofNat 8)
  else if c = 'f' then some (Char.ofNat 12)
  else if c = 'n' then some '\n'
  else if c = 'r' then some '\r'
  else if c = 't' then some '\t'
  else none

/-- One character of a JSON string, after any closing quote has been ruled out, and what follows it.  A surrogate that is not
part of a pair would make a string that the model leaves out (see above); it is an error here. -/
def scanChar : Str → Option (Char × Str)
  | '\\' :: 'u' :: a :: b :: c :: d :: t =>
    match hexVal4 a b c d with
    | none => none
    | some n =>
      if 0xd800 ≤ n ∧ n ≤ 0xdbff then
        match t with
        | '\\' :: 'u' :: a' :: b' :: c' :: d' :: t' =>
          match hexVal4 a' b' c' d' with
          | some n' =>
            if 0xdc00 ≤ n' ∧ n' ≤ 0xdfff then
              some (Char.ofNat (0x10000 + 1024 * (n - 0xd800) + (n' - 0xdc00)), t')
            else none
          | none => none
        | _ => none
      else if 0xdc00 ≤ n ∧ n ≤ 0xdfff then none
      else some (Char.ofNat n, t)
  | '\\' :: e :: t => (jsonEscape e).map fun c => (c, t)
  | c :: t => if c.toNat < 32 ∨ c = '\\' then none else some (c, t)
  | [] => none

/-- The rest of a string after the opening quote: the string and the text after the closing quote.  `n` bounds the number of
characters. -/
def scanString : ℕ → Str → VM (Str × Str)
  | 0, _ => .error .valueError
  | _ + 1, '"' :: t => .ok ([], t)
  | n + 1, s =>
    match scanChar s with
    | none => .error .valueError
    | some (c, t) => do
      let (cs, t) ← scanString n t
      pure (c :: cs, t)

/-- Whitespace of JSON. -/
def jsonSpace (c : Char) : Bool := c = ' ' || c = '\t' || c = '\n' || c = '\r'

def skipSpace (s : Str) : Str := s.dropWhile jsonSpace

/-- A value. -/
def scanValue (s : Str) : VM (JVal × Str) :=
  match s with
  | '"' :: t => do
    let (v, t) ← scanString t.length t
    pure (.str v, t)
  | 'n' :: 'u' :: 'l' :: 'l' :: t => .ok (.null, t)
  | 't' :: 'r' :: 'u' :: 'e' :: t => .ok (.bool true, t)
  | 'f' :: 'a' :: 'l' :: 's' :: 'e' :: t => .ok (.bool false, t)
  | _ => .error .valueError

/-- `json.decoder.JSONObject` from the opening quote of a key on; `n` bounds the number of members. -/
def scanMembers : ℕ → PyDict → Str → VM (PyDict × Str)
  | n + 1, d, '"' :: t => do
    let (k, t) ← scanString t.length t
    match skipSpace t with
    | ':' :: t => do
      let (v, t) ← scanValue (skipSpace t)
      let d := setItem d k v
      match skipSpace t with
      | '}' :: t => .ok (d, t)
      | ',' :: t => scanMembers n d (skipSpace t)
      | _ => .error .valueError
    | _ => .error .valueError
  | _, _, _ => .error .valueError

/-- `json.loads(s)` for an object. -/
def jsonLoads (s : Str) : VM PyDict :=
  match skipSpace s with
  | '{' :: t => do
    let (d, t) ← match skipSpace t with
      | '}' :: t => (.ok ([], t) : VM (PyDict × Str))
      | t => scanMembers t.length [] t
    if (skipSpace t).isEmpty then pure d else .error .valueError
  | _ => .error .valueError

/-! ## The version file -/

/-- `SHORT_VERSION_PY` (lines 1398–1413) up to `%s`. -/
def shortHead : Str :=
  "\n# This file was generated by 'versioneer.py' (0.22) from\n".toList ++
  "# revision-control system data, or from the parent directory name of an\n".toList ++
  "# unpacked source archive. Distribution tarballs contain a pre-generated copy\n".toList ++
  "# of this file.\n\nimport json\n\nversion_json = '''\n".toList

/-- `SHORT_VERSION_PY` from the end of `version_json` on. -/
def shortTail : Str := "'''  # END VERSION_JSON\n\n\ndef get_versions():\n    return json.loads(version_json)\n".toList

/-- `SHORT_VERSION_PY % contents`. -/
def shortVersionPy (contents : Str) : Str := shortHead ++ contents ++ ['\n'] ++ shortTail

/-- `f.write(s)` to a file in text mode: on Windows every newline becomes a carriage return and a newline. -/
def writeText (win32 : Bool) (s : Str) : Str :=
  if win32 then s.flatMap fun c => if c = '\n' then ['\r', '\n'] else [c] else s

/-- `f.read()` of a file in text mode: a carriage return, perhaps with a newline after it, becomes a newline. -/
def readText : Str → Str
  | '\r' :: '\n' :: t => '\n' :: readText t
  | '\r' :: t => '\n' :: readText t
  | c :: t => c :: readText t
  | [] => []

/-- `for line in f`: the lines of a text with their newlines. -/
def linesOf (acc : Str) : Str → List Str
  | [] => if acc.isEmpty then [] else [acc.reverse]
  | c :: t => if c = '\n' then (c :: acc).reverse :: linesOf [] t else linesOf (c :: acc) t

/-- `write_to_version_file` (lines 1435–1442): what is in the file afterwards. -/
def writeVersionFile (win32 : Bool) (versions : PyDict) : Str := writeText win32 (shortVersionPy (jsonDumps versions))

/-- The text before the last occurrence of `pat`. -/
def beforeLast (pat : Str) : Str → Option Str
  | [] => if pat.isEmpty then some [] else none
  | c :: t =>
    match beforeLast pat t with
    | some u => some (c :: u)
    | none => if pat.isPrefixOf (c :: t) then some [] else none

/-- `re.search(start + "(.*)" + fin, s, re.M | re.S).group(1)` for literal texts `start` and `fin`: the first place of `start`
that has `fin` somewhere behind it, and the last of these places. -/
def searchBetween (start fin : Str) : Str → Option Str
  | [] => if start.isPrefixOf [] then beforeLast fin ([] : Str) else none
  | c :: t =>
    match (if start.isPrefixOf (c :: t) then beforeLast fin ((c :: t).drop start.length) else none) with
    | some u => some u
    | none => searchBetween start fin t

def jsonStart : Str := "version_json = '''\n".toList
def jsonStartCr : Str := "version_json = '''\r\n".toList
def jsonEnd : Str := "'''  # END VERSION_JSON".toList

/-- `versions_from_file` (lines 1416–1432), for the text that is in the file, or `none` if it cannot be read. -/
def versionsFromFile (file : Option Str) : VM PyDict :=
  match file with
  | none => .error .notThisMethod
  | some text =>
    match (searchBetween jsonStart jsonEnd (readText text)).or (searchBetween jsonStartCr jsonEnd (readText text)) with
    | none => .error .notThisMethod
    | some contents => jsonLoads contents

/-! ## `get_versions` -/

def optStr : Option Str → JVal
  | none => .null
  | some s => .str s

def optBool : Option Bool → JVal
  | none => .null
  | some b => .bool b

/-- The dictionary that is written `{"version": ..., "full-revisionid": ..., "dirty": ..., "error": ..., "date": ...}` in
the code. -/
def infoDict (v : Info) : PyDict :=
  [("version".toList, .str v.version), ("full-revisionid".toList, optStr v.fullRevisionid),
   ("dirty".toList, optBool v.dirty), ("error".toList, optStr v.error), ("date".toList, optStr v.date)]

/-- `try: return x; except NotThisMethod: pass`. -/
def orElseDict (x rest : VM PyDict) : VM PyDict :=
  match x with
  | .error .notThisMethod => rest
  | r => r

/-- `get_versions` of `versioneer.py` (lines 1703–1781), in the directory `root`, for the text that is in
`root/versionfile_source`, or `none` if it cannot be read. -/
def setupVersions (sys : Sys) (cfg : Config) (root : Str) (file : Option Str) : VM PyDict :=
  orElseDict ((versionsFromKeywords sys.digits (getKeywords (file.map fun t => linesOf [] (readText t)))
    cfg.tagPrefix).map infoDict) (
    orElseDict (versionsFromFile file) (
      orElseDict ((do
        let pieces ← piecesFromVcs sys cfg.tagPrefix root (runCommand sys)
        render sys.digits pieces (some cfg.style)).map infoDict) (
        orElseDict (if cfg.parentdirPrefix.isEmpty then .error .notThisMethod
            else (versionsFromParentdir cfg.parentdirPrefix root).map infoDict) (
          .ok (infoDict ⟨"0+unknown".toList, none, none, some "unable to compute version".toList, none⟩)))))

/-- `sdist` (lines 1976–1998) and `build_py` (lines 1856–1868): what is in the version file of the distribution. -/
def releaseFile (sys : Sys) (cfg : Config) (root : Str) (file : Option Str) : VM Str := do
  let versions ← setupVersions sys cfg root file
  pure (writeVersionFile sys.win32 versions)

/-! ## Importing the file -/

/-- A string literal from its opening `'''` on: the text up to the next `'''`, and what is behind it.  A backslash protects
the character after it. -/
def tripleBody : Str → Option (Str × Str)
  | '\'' :: '\'' :: '\'' :: t => some ([], t)
  | '\\' :: c :: t => (tripleBody t).map fun (u, r) => ('\\' :: c :: u, r)
  | c :: t => (tripleBody t).map fun (u, r) => (c :: u, r)
  | [] => none

/-- The value of an octal digit. -/
def octVal (c : Char) : Option ℕ := if 48 ≤ c.toNat ∧ c.toNat ≤ 55 then some (c.toNat - 48) else none

/-- The escape sequences of a string literal that stand for one character: the character and what follows it.  `none` for an
error, `some none` if there is no escape sequence (the backslash stands for itself).  A sequence for a surrogate is an error
here (see above); the names of characters (`\N`) are left out: an error too. -/
def pyEscape : Str → Option (Option (Char × Str))
  | '\\' :: t => some (some ('\\', t))
  | '\'' :: t => some (some ('\'', t))
  | '"' :: t => some (some ('"', t))
  | 'a' :: t => some (some (Char.ofNat 7, t))
  | 'b' :: t => some (some (Char.ofNat 8, t))
  | 'f' :: t => some (some (Char.ofNat 12, t))
  | 'n' :: t => some (some ('\n', t))
  | 'r' :: t => some (some ('\r', t))
  | 't' :: t => some (some ('\t', t))
  | 'v' :: t => some (some (Char.ofNat 11, t))
  | 'x' :: a :: b :: t =>
    match hexVal a, hexVal b with
    | some a, some b => some (some (Char.ofNat (16 * a + b), t))
    | _, _ => none
  | 'x' :: _ => none
  | 'u' :: a :: b :: c :: d :: t =>
    match hexVal4 a b c d with
    | some n => if 0xd800 ≤ n ∧ n ≤ 0xdfff then none else some (some (Char.ofNat n, t))
    | none => none
  | 'u' :: _ => none
  | 'U' :: a :: b :: c :: d :: a' :: b' :: c' :: d' :: t =>
    match hexVal4 a b c d, hexVal4 a' b' c' d' with
    | some m, some n =>
      let k := 0x10000 * m + n
      if (0xd800 ≤ k ∧ k ≤ 0xdfff) ∨ 0x10ffff < k then none else some (some (Char.ofNat k, t))
    | _, _ => none
  | 'U' :: _ => none
  | 'N' :: _ => none
  | o :: t =>
    match octVal o with
    | none => some none
    | some a =>
      match t with
      | [] => some (some (Char.ofNat a, []))
      | p :: t' =>
        match octVal p with
        | none => some (some (Char.ofNat a, p :: t'))
        | some b =>
          match t' with
          | [] => some (some (Char.ofNat (8 * a + b), []))
          | q :: t'' =>
            match octVal q with
            | none => some (some (Char.ofNat (8 * a + b), q :: t''))
            | some c => some (some (Char.ofNat (64 * a + 8 * b + c), t''))
  | [] => none

/-- The string that a literal stands for; `n` bounds its length; `none` is a `SyntaxError`. -/
def unescape : ℕ → Str → Option Str
  | _, [] => some []
  | 0, _ :: _ => none
  | n + 1, '\\' :: '\n' :: t => unescape n t
  | n + 1, '\\' :: t =>
    match pyEscape t with
    | none => none
    | some none => (unescape n t).map ('\\' :: ·)
    | some (some (c, t)) => (unescape n t).map (c :: ·)
  | n + 1, c :: t => (unescape n t).map (c :: ·)

/-- What happens when a generated version file is imported and its `get_versions()` is called. -/
inductive Imported
  /-- The result of `get_versions()`. -/
  | result (r : VM PyDict)
  /-- The file is not Python. -/
  | syntaxError
  /-- The file is not of the form that is modelled: the literal ends before its time, and Python goes on with the text behind
  it as a program. -/
  | other
  deriving DecidableEq

/-- The import of a file, for files that begin like `SHORT_VERSION_PY`. -/
def importFile (text : Str) : Imported :=
  let text := readText text
  if shortHead.isPrefixOf text then
    match tripleBody ('\n' :: text.drop shortHead.length) with
    | none => .syntaxError
    | some (body, rest) =>
      if "'''".toList ++ rest = shortTail then
        match unescape body.length body with
        | none => .syntaxError
        | some s => .result (jsonLoads s)
      else .other
  else .other

end Snompy.Version
