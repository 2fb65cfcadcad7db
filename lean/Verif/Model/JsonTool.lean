import Verif.Model.EniBase
/-!
# The json operation (examples/eni/json/eni_json.cpp)

The tokenizer jsmn is a git submodule that is not part of /repo: it is a parameter. `std::map` is a list of bindings, newest first.
-/
namespace Eni.JsonTool

/-- `jsmntype_t` -/
inductive Kind where
  | undefined
  | object
  | array
  | string
  | primitive
  deriving DecidableEq, Repr

/-- `jsmntok_t`; the fields `size` and `parent` are not used. -/
structure Tok where
  kind : Kind
  start : Int
  stop : Int
  deriving DecidableEq, Repr

/-- What surrounds the code: the tokenizer (data, start, end; `none` is a negative result), the memory layout (see C25), and the
conversion of `int256_t` to `int` (boost), of which only the values that fit are specified. -/
structure Env where
  jsmn : Bytes → Int → Int → Option (List Tok)
  L : Json.Layout
  conv : Int → Int
  hconv : ∀ z, -2147483648 ≤ z → z < 2147483648 → conv z = z

/-- `parseString` (eni_json.cpp 14-18). -/
def parseString (L : Json.Layout) (raw : Bytes) : Res Bytes := do
  let p ← Json.parse L raw
  if p.success then p.root.toStr else .ok []

/-- `internalParse` (eni_json.cpp 19-31): a negative length makes the constructor of `std::vector` throw. `p.pos = start` and the parameter
`end` are conversions to unsigned types, left to the tokenizer. -/
def internalParse (E : Env) (data : Bytes) (start stop : Int) : Res (List Tok) :=
  match E.jsmn data start stop with
  | none => .throw .stdLengthError
  | some ts => .ok ts

/-- A digit of `%x`. -/
def hexDig (n : Nat) : UInt8 := if n < 10 then (48 + n).toUInt8 else (87 + n).toUInt8

/-- `%08x` of an `int` read as `unsigned`. -/
def hex8 (z : Int) : Bytes :=
  let n := (z % 4294967296).toNat
  [hexDig (n / 268435456 % 16), hexDig (n / 16777216 % 16), hexDig (n / 1048576 % 16), hexDig (n / 65536 % 16),
   hexDig (n / 4096 % 16), hexDig (n / 256 % 16), hexDig (n / 16 % 16), hexDig (n % 16)]

/-- `int` arithmetic. -/
def int32 (z : Int) : Res Int := if -2147483648 ≤ z ∧ z < 2147483648 then .ok z else .ub .overflow

/-- `encodeToken` (eni_json.cpp 32-39). -/
def encodeToken (t : Tok) : Res Bytes := do
  let q := if t.kind = .string then 1 else 0
  let a ← int32 (t.start - q)
  let b ← int32 (t.stop + q)
  .ok (hex8 a ++ hex8 b)

/-- The loop of `arrayTokens` (eni_json.cpp 45-54). -/
def arrayLoop (before : Int) : Int → List Tok → List Tok
  | _, [] => []
  | after, t :: ts =>
    if t.start < after then arrayLoop before after ts
    else if t.start > before then []
    else t :: arrayLoop before t.stop ts

/-- `arrayTokens` (eni_json.cpp 40-56). -/
def arrayTokens (E : Env) (data : Bytes) (start stop : Int) : Res (List Tok) := do
  let ts ← internalParse E data start stop
  match ts with
  | [] => .ub .outOfBounds
  | t0 :: ts => .ok (arrayLoop t0.stop t0.start ts)

/-- The loop of `parseArray` (eni_json.cpp 58-62). -/
def encodeAll : List Tok → Res Bytes
  | [] => .ok []
  | t :: ts => do
    let a ← encodeToken t
    let b ← encodeAll ts
    .ok (a ++ b)

/-- `parseArray` (eni_json.cpp 57-63). -/
def parseArray (E : Env) (data : Bytes) (start stop : Int) : Res Bytes := do
  let ts ← arrayTokens E data start stop
  encodeAll ts

/-- `arrayGet` (eni_json.cpp 64-67): the index is not checked. -/
def arrayGet (E : Env) (data : Bytes) (start stop index : Int) : Res Bytes := do
  let ts ← arrayTokens E data start stop
  if index < 0 then .ub .outOfBounds
  else
    match ts[index.toNat]? with
    | none => .ub .outOfBounds
    | some t => encodeToken t

/-- `getkey` (eni_json.cpp 75-78): the characters from `tok.start - 1` to `tok.end`; `data` has a NUL behind its last character. -/
def getKey (E : Env) (data : Bytes) (t : Tok) : Res Bytes :=
  if 0 ≤ t.start - 1 ∧ t.start - 1 ≤ t.stop + 1 ∧ t.stop + 1 ≤ data.length + 1 then
    parseString E.L (((data ++ [0]).drop (t.start - 1).toNat).take ((t.stop + 1) - (t.start - 1)).toNat)
  else .ub .outOfBounds

/-- The loop of `objectTokens` (eni_json.cpp 79-93). `key` is `tokens[key_token]`; the index 0 means that there is none (token 0 is the
object itself and the loop begins with 1). -/
def objectLoop (E : Env) (data : Bytes) (before : Int) : Int → Option Tok → List (Bytes × Tok) → List Tok → Res (List (Bytes × Tok))
  | _, _, m, [] => .ok m
  | after, key, m, t :: ts =>
    if t.start < after then objectLoop E data before after key m ts
    else if t.start > before then .ok m
    else
      match key with
      | none => objectLoop E data before t.stop (some t) m ts
      | some k => do
        let name ← getKey E data k
        objectLoop E data before t.stop none ((name, t) :: m) ts

/-- `objectTokens` (eni_json.cpp 69-95). -/
def objectTokens (E : Env) (data : Bytes) (start stop : Int) : Res (List (Bytes × Tok)) := do
  let ts ← internalParse E data start stop
  match ts with
  | [] => .ub .outOfBounds
  | t0 :: ts => objectLoop E data t0.stop t0.start none [] ts

/-- `objectGet` (eni_json.cpp 97-100): `tokens[key]` creates a zero token for a missing key. -/
def objectGet (E : Env) (data : Bytes) (start stop : Int) (key : Bytes) : Res Bytes := do
  let m ← objectTokens E data start stop
  match m.lookup key with
  | some t => encodeToken t
  | none => encodeToken ⟨.undefined, 0, 0⟩

/-- `std::string(data.data(), begin, end)` (eni_json.cpp 116): the C string is converted to a string first; `end` is the number of
characters. A negative `begin` is a huge position. -/
def subString (data : Bytes) (begin_ stop : Int) : Res Bytes :=
  let s := cstr data
  if begin_ < 0 ∨ begin_ > s.length then .throw .stdOutOfRange
  else if stop < 0 then .ok (s.drop begin_.toNat)
  else .ok ((s.drop begin_.toNat).take stop.toNat)

/-- The names of the functions (eni_json.cpp 115-121). -/
def nParseString : Bytes := "parseString".toUTF8.toList
def nParseArray : Bytes := "parseArray".toUTF8.toList
def nArrayGet : Bytes := "arrayGet".toUTF8.toList
def nObjectGet : Bytes := "objectGet".toUTF8.toList

/-- `JSON::parse` (eni_json.cpp 110-127) up to the assignment of `m_Str`: `none` is the result false. -/
def parseArgs (E : Env) (vs : List Value) : Res (Option Bytes) := do
  let op ← Value.argAt vs 0 >>= Value.toStr
  let data ← Value.argAt vs 1 >>= Value.toStr
  let begin_ ← Value.argAt vs 2 >>= Value.toInteger
  let stop ← Value.argAt vs 3 >>= Value.toInteger
  let b := E.conv begin_
  let e := E.conv stop
  if op = nParseString then do
    let raw ← subString data b e
    let s ← parseString E.L raw
    .ok (some s)
  else if op = nParseArray then do
    let s ← parseArray E data b e
    .ok (some s)
  else if op = nArrayGet then do
    let i ← Value.argAt vs 4 >>= Value.toInteger
    let s ← arrayGet E data b e (E.conv i)
    .ok (some s)
  else if op = nObjectGet then do
    let k ← Value.argAt vs 4 >>= Value.toStr
    let s ← objectGet E data b e k
    .ok (some s)
  else .ok none

/-- `JSON` (eni_json.cpp 103-138); the state is `m_Str`. -/
def op (E : Env) : Base.Hooks Bytes where
  init := []
  parse := fun old vs =>
    match parseArgs E vs with
    | .ok (some s) => (s, .ok true)
    | .ok none => (old, .ok false)
    | .throw e => (old, .throw e)
    | .ub u => (old, .ub u)
    | .diverge => (old, .diverge)
    | .exit c => (old, .exit c)
  gas := fun s => .ok (s.length * 10)
  run := fun s ret => (s, ret ++ [.str s], .ok true)

end Eni.JsonTool
