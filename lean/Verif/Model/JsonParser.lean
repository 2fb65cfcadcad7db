import Verif.Model.JsonValue
/-!
# `json::Parser` and `json::Callbacks` (include/eni/json/Parser.h, Callbacks.h)

The scanner position `m_It` is represented by the bytes from `m_It` to `m_End`; the byte at `m_End` is the terminating NUL of the
`std::string` and may be read, anything after it may not (`ub outOfBounds`).

Simplified: the parser only tells the callbacks what it found and never looks at them, so the calls are collected in a list and carried
out in order when parsing has ended, whether by success or by `ParserError`.
-/
namespace Eni
namespace Json

/-- A call of a member function of `Callbacks` by the parser. -/
inductive Ev where
  | boolean (b : Bool)            -- on_boolean
  | number (s : Bytes)            -- on_number
  | string (s : Bytes) (isKey : Bool)  -- on_string
  | beginArray
  | endArray
  | beginObject
  | endObject
  deriving DecidableEq, Repr

/-- The messages passed to `parse_error`. -/
inductive PErr where
  | value | true_ | false_ | digits | unterminated | arrayEnd | key | colon | objectEnd | escape | code
  deriving DecidableEq, Repr

/-- The addresses that `have(const char*)` compares (Parser.h 263): `m_End` and the string literals "rue" (72) and "alse" (77). -/
structure Layout where
  bufEnd : Nat
  rue : Nat
  alse : Nat
  deriving DecidableEq, Repr

/-- `m_It` (as the remaining bytes) and the callback invocations so far. -/
structure PState where
  it : Bytes
  ev : List Ev
  deriving DecidableEq, Repr

/-- Outcome of a parser function; `err` is the exception `ParserError` after a message. -/
inductive PRes (α : Type) where
  | ok (a : α) (st : PState)
  | err (e : PErr) (st : PState)
  | ub (u : UB)
  | diverge
  deriving DecidableEq, Repr

/-- A parser function. -/
abbrev P (α : Type) := PState → PRes α

def P.bind {α β : Type} (x : P α) (f : α → P β) : P β := fun st =>
  match x st with
  | .ok a st' => f a st'
  | .err e st' => .err e st'
  | .ub u => .ub u
  | .diverge => .diverge

instance : Monad P where
  pure a := fun st => .ok a st
  bind := P.bind

/-- `parse_error` (Parser.h 282-285). -/
def error {α : Type} (e : PErr) : P α := fun st => .err e st

/-- A call of a callback. -/
def emit (e : Ev) : P Unit := fun st => .ok () { st with ev := st.ev ++ [e] }

/-- `m_It[i]`: the NUL after the last byte may be read. -/
def peek (it : Bytes) (i : Nat) : Option UInt8 := if i = it.length then some 0 else it[i]?

/-- `have(char)` (Parser.h 232-238) and `have(char, vector&)` (249-256), whose buffer argument gets the character appended by the
caller here. -/
def haveC (c : UInt8) : P Bool := fun st =>
  match st.it with
  | x :: xs => if x = c then .ok true { st with it := xs } else .ok false st
  | [] => if c = 0 then .ub .outOfBounds else .ok false st

/-- `expect(char, msg)` (Parser.h 269-273). -/
def expectC (c : UInt8) (e : PErr) : P Unit := do
  if ← haveC c then pure () else error e

/-- The loop of `have(const char*)` (Parser.h 262-264) from index `i` on; `pat` is the rest of the pattern, `addr` the address of its
first character. -/
def haveLitLoop (bufEnd addr : Nat) (it : Bytes) : Nat → Bytes → Res Bool
  | _, [] => .ok true
  | i, c :: pat =>
    if bufEnd ≤ addr + i then .ok false
    else match peek it i with
      | none => .ub .outOfBounds
      | some x => if c ≠ x then .ok false else haveLitLoop bufEnd addr it (i + 1) pat

/-- `have(const char*)` (Parser.h 260-267). -/
def haveLit (bufEnd addr : Nat) (pat : Bytes) : P Bool := fun st =>
  match haveLitLoop bufEnd addr st.it 0 pat with
  | .ok true => if st.it.length < pat.length then .ub .outOfBounds else .ok true { st with it := st.it.drop pat.length }
  | .ok false => .ok false st
  | .ub u => .ub u
  | _ => .diverge

/-- `expect(const char*, msg)` (Parser.h 276-280). -/
def expectLit (bufEnd addr : Nat) (pat : Bytes) (e : PErr) : P Unit := do
  if ← haveLit bufEnd addr pat then pure () else error e

/-- The four characters of `skip_ws`. -/
def isWs (c : UInt8) : Bool := c = 32 || c = 9 || c = 10 || c = 13

/-- `is_digit` (Parser.h 292-294); bytes above 0x7f are negative `char`s and no digits. -/
def isDigit (c : UInt8) : Bool := 48 ≤ c && c ≤ 57

/-- `is_pos_digit` (Parser.h 295-297). -/
def isPosDigit (c : UInt8) : Bool := 49 ≤ c && c ≤ 57

/-- The loop of `skip_ws` (Parser.h 170-172); NUL is not white space, so the loop stops at `m_End`. -/
def dropWs : Bytes → Bytes
  | [] => []
  | c :: cs => if isWs c then dropWs cs else c :: cs

/-- `skip_ws` (Parser.h 170-172). -/
def skipWs : P Unit := fun st => .ok () { st with it := dropWs st.it }

/-- `parse_boolean` (Parser.h 69-82). -/
def parseBoolean (L : Layout) : P Bool := do
  skipWs
  if ← haveC 116 then
    expectLit L.bufEnd L.rue [114, 117, 101] .true_
    emit (.boolean true)
    return true
  if ← haveC 102 then
    expectLit L.bufEnd L.alse [97, 108, 115, 101] .false_
    emit (.boolean false)
    return true
  return false

/-- `parse_digits` (Parser.h 183-185): the loop over `have(is_digit, pStr)` (240-247). -/
def parseDigits (str : Bytes) : P Bytes := fun st =>
  .ok (str ++ st.it.takeWhile isDigit) { st with it := st.it.dropWhile isDigit }

/-- `parse_int_part` (Parser.h 174-180). -/
def parseIntPart (str : Bytes) : P (Bool × Bytes) := fun st =>
  match st.it with
  | x :: xs =>
    if isPosDigit x then
      match parseDigits (str ++ [x]) { st with it := xs } with
      | .ok s st' => .ok (true, s) st'
      | .err e st' => .err e st'
      | .ub u => .ub u
      | .diverge => .diverge
    else .ok (false, str) st
  | [] => .ok (false, str) st

/-- `parse_number` (Parser.h 84-99). -/
def parseNumber : P Bool := do
  skipWs
  let started ← haveC 45
  let str : Bytes := if started then [45] else []
  if ← haveC 48 then
    emit (.number (str ++ [48]))
    return true
  let (ok, str) ← parseIntPart str
  if ok then
    emit (.number str)
    return true
  if started then error .digits
  return false

/-- One character test of `valid_code` (Parser.h 221-223). -/
def isHex (c : UInt8) : Bool := (48 ≤ c && c ≤ 57) || (97 ≤ c && c ≤ 102) || (65 ≤ c && c ≤ 70)

/-- `valid_code` (Parser.h 219-227) from index `i` on, `n` characters to go. -/
def validCode (it : Bytes) : Nat → Nat → Res Bool
  | _, 0 => .ok true
  | i, n + 1 =>
    match peek it i with
    | none => .ub .outOfBounds
    | some c => if isHex c then validCode it (i + 1) n else .ok false

/-- Value of a hexadecimal digit for `sscanf("%X")`. -/
def hexDigit (c : UInt8) : Nat :=
  if c ≤ 57 then c.toNat - 48 else if c ≤ 70 then c.toNat - 55 else c.toNat - 87

/-- `parse_codepoint` (Parser.h 210-217): the number is converted to `char`, which keeps the low byte. -/
def parseCodepoint : P UInt8 := fun st =>
  match validCode st.it 0 4 with
  | .ok false => .err .code st
  | .ok true =>
    match st.it with
    | a :: b :: c :: d :: rest =>
      .ok (((hexDigit a * 16 + hexDigit b) * 16 + hexDigit c) * 16 + hexDigit d).toUInt8 { st with it := rest }
    | _ => .ub .outOfBounds
  | .ub u => .ub u
  | _ => .diverge

/-- `parse_escape` (Parser.h 187-209). -/
def parseEscape : P UInt8 := do
  if ← haveC 34 then return 34
  if ← haveC 92 then return 92
  if ← haveC 47 then return 47
  if ← haveC 98 then return 8
  if ← haveC 102 then return 12
  if ← haveC 110 then return 10
  if ← haveC 114 then return 13
  if ← haveC 116 then return 9
  if ← haveC 117 then parseCodepoint else error .escape

/-- `str.push_back(*m_It); m_It++;` (Parser.h 116-117). -/
def takeByte : P UInt8 := fun st =>
  match st.it with
  | x :: xs => .ok x { st with it := xs }
  | [] => .ub .outOfBounds

/-- `m_It == m_End` (Parser.h 109). -/
def atEnd : P Bool := fun st => .ok st.it.isEmpty st

/-- The `while (1)` loop of `parse_string` (Parser.h 107-119), `fuel` iterations at most. -/
def strLoop : Nat → Bytes → P Bytes
  | 0, _ => fun _ => .diverge
  | fuel + 1, str => do
    if ← haveC 34 then return str
    if ← atEnd then error .unterminated
    if ← haveC 92 then
      let c ← parseEscape
      strLoop fuel (str ++ [c])
    else
      let c ← takeByte
      strLoop fuel (str ++ [c])

/-- `parse_string` (Parser.h 101-122). Every iteration of the loop moves `m_It` on, so the number of remaining bytes plus one is enough
fuel (part of C23). -/
def parseString (isKey : Bool) : P Bool := do
  skipWs
  if ← haveC 34 then
    let str ← fun st => strLoop (st.it.length + 1) [] st
    emit (.string str isKey)
    return true
  return false

/-- The `do`-`while` loop of `parse_array` (Parser.h 135-138); `pv` is `parse_value`. -/
def elemsLoop (pv : P Unit) : Nat → P Unit
  | 0 => fun _ => .diverge
  | fuel + 1 => do
    pv
    skipWs
    if ← haveC 44 then elemsLoop pv fuel else pure ()

/-- `parse_array` (Parser.h 124-142). -/
def parseArray (pv : P Unit) : P Bool := do
  skipWs
  if ← haveC 91 then
    emit .beginArray
    skipWs
    if ← haveC 93 then
      emit .endArray
      return true
    fun st => elemsLoop pv (st.it.length + 1) st
    expectC 93 .arrayEnd
    emit .endArray
    return true
  return false

/-- The `do`-`while` loop of `parse_object` (Parser.h 154-161). -/
def membersLoop (pv : P Unit) : Nat → P Unit
  | 0 => fun _ => .diverge
  | fuel + 1 => do
    if ← parseString true then pure () else error .key
    skipWs
    expectC 58 .colon
    pv
    skipWs
    if ← haveC 44 then membersLoop pv fuel else pure ()

/-- `parse_object` (Parser.h 144-165). -/
def parseObject (pv : P Unit) : P Bool := do
  skipWs
  if ← haveC 123 then
    emit .beginObject
    skipWs
    if ← haveC 125 then
      emit .endObject
      return true
    fun st => membersLoop pv (st.it.length + 1) st
    expectC 125 .objectEnd
    emit .endObject
    return true
  return false

/-- `parse_value` (Parser.h 60-67); the fuel bounds the nesting depth. -/
def parseValue (L : Layout) : Nat → P Unit
  | 0 => fun _ => .diverge
  | fuel + 1 => do
    if ← parseObject (parseValue L fuel) then return ()
    if ← parseArray (parseValue L fuel) then return ()
    if ← parseString false then return ()
    if ← parseBoolean L then return ()
    if ← parseNumber then return ()
    error .value

/-! ### Callbacks -/

/-- `m_Stack` (top first) and `m_Root` (Callbacks.h 104-105). -/
structure CbState where
  stack : List (Value × Bytes)
  root : Value

/-- `Callbacks()` (Callbacks.h 29). -/
def CbState.init : CbState := ⟨[], .undef⟩

/-- `set_parent` (Callbacks.h 80-93). -/
def setParent (cb : CbState) (v : Value) : Res CbState :=
  match cb.stack with
  | [] => .ok { cb with root := v }
  | (.obj m, key) :: rest => do
    let (m, _) ← SMap.assign m key v
    .ok { cb with stack := (.obj m, key) :: rest }
  | (.arr vs, key) :: rest => .ok { cb with stack := (.arr (vs ++ [v]), key) :: rest }
  | _ :: _ => .ok cb

/-- The copy of the top of the stack made by `end_array` and `end_object` (Callbacks.h 62, 74; Value.cpp 19-40). The hash table of an
object is copied (`StringMap` copy constructor). Simplified: elements and member values, which are copied recursively, are taken as they
are, and of the several copies made on the way (argument of `set_parent`, assignment) only this one is shown. -/
def copyTop : Value → Value
  | .obj m => .obj (SMap.copy m)
  | v => v

/-- `begin_array` (Callbacks.h 55-59), `begin_object` (67-71, with `StringMap()` of size 8), `end_array` (61-65), `end_object` (73-77),
`on_boolean` (31-34), `on_number` (36-42), `on_string` (44-53). `back()` and `pop_back()` on an empty vector are undefined. -/
def cbStep (cb : CbState) : Ev → Res CbState
  | .boolean b => setParent cb (.bool b)
  | .number s => setParent cb (.int (Value.s256OfText s))
  | .string s true =>
    match cb.stack with
    | [] => .ub .outOfBounds
    | (v, _) :: rest => .ok { cb with stack := (v, s) :: rest }
  | .string s false => setParent cb (.str s)
  | .beginArray => .ok { cb with stack := (.arr [], []) :: cb.stack }
  | .beginObject => .ok { cb with stack := (.obj (SMap.new 8), []) :: cb.stack }
  | .endArray | .endObject =>
    match cb.stack with
    | [] => .ub .outOfBounds
    | (v, _) :: rest => setParent { cb with stack := rest } (copyTop v)

/-- The callback invocations in order. -/
def cbRun (cb : CbState) : List Ev → Res CbState
  | [] => .ok cb
  | e :: es => do
    let cb ← cbStep cb e
    cbRun cb es

/-- What a `Parser` object shows after construction: `operator bool` and `getRoot()` (Parser.h 56-58, 166-168). -/
structure Parsed where
  success : Bool
  root : Value

/-- `Parser(const std::string&)` (Parser.h 44-54). Nesting depth is at most the length of the text, so the fuel is enough (part of C23). -/
def parse (L : Layout) (s : Bytes) : Res Parsed :=
  match parseValue L (s.length + 1) ⟨s, []⟩ with
  | .ok _ st => do
    let cb ← cbRun .init st.ev
    .ok ⟨true, cb.root⟩
  | .err _ st => do
    let cb ← cbRun .init st.ev
    .ok ⟨false, cb.root⟩
  | .ub u => .ub u
  | .diverge => .diverge

end Json
end Eni
