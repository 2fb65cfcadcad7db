import Verif.Model.JsonParser
/-!
# The scanner of `json::Parser` with a count of what it looks at (include/eni/json/Parser.h)

The functions of Model/JsonParser once more, in the same order; each also tells how often a character of the text was looked at (`*m_It`,
`m_It[i]`, `str[i]`) or `m_It` was compared with `m_End`. A run that is not defined counts as far as it came.

Simplified: calls of callbacks, the construction of strings and `sscanf` are not counted; the copying of four characters in
`parse_codepoint` counts as four looks.
-/
namespace Eni
namespace Json

/-- A parser function that counts. -/
abbrev T (α : Type) := PState → PRes α × Nat

def T.bind {α β : Type} (x : T α) (f : α → T β) : T β := fun st =>
  match x st with
  | (.ok a st', k) => ((f a st').1, k + (f a st').2)
  | (.err e st', k) => (.err e st', k)
  | (.ub u, k) => (.ub u, k)
  | (.diverge, k) => (.diverge, k)

instance : Monad T where
  pure a := fun st => (.ok a st, 0)
  bind := T.bind

/-- A step that looks `k` times. -/
def looks {α : Type} (k : PState → Nat) (x : P α) : T α := fun st => (x st, k st)

/-- `parse_error` (Parser.h 282-285). -/
def errorT {α : Type} (e : PErr) : T α := looks (fun _ => 0) (error e)

/-- A call of a callback. -/
def emitT (e : Ev) : T Unit := looks (fun _ => 0) (emit e)

/-- `have(char)` (Parser.h 232-238) and `have(char, vector&)` (249-256). -/
def haveCT (c : UInt8) : T Bool := looks (fun _ => 1) (haveC c)

/-- `expect(char, msg)` (Parser.h 269-273). -/
def expectCT (c : UInt8) (e : PErr) : T Unit := do
  if ← haveCT c then pure () else errorT e

/-- The number of characters that the loop of `have(const char*)` (Parser.h 262-264) looks at. -/
def litLooks (bufEnd addr : Nat) (it : Bytes) : Nat → Bytes → Nat
  | _, [] => 0
  | i, c :: pat =>
    if bufEnd ≤ addr + i then 0
    else match peek it i with
      | none => 1
      | some x => if c ≠ x then 1 else 1 + litLooks bufEnd addr it (i + 1) pat

/-- `have(const char*)` (Parser.h 260-267). -/
def haveLitT (bufEnd addr : Nat) (pat : Bytes) : T Bool :=
  looks (fun st => litLooks bufEnd addr st.it 0 pat) (haveLit bufEnd addr pat)

/-- `expect(const char*, msg)` (Parser.h 276-280). -/
def expectLitT (bufEnd addr : Nat) (pat : Bytes) (e : PErr) : T Unit := do
  if ← haveLitT bufEnd addr pat then pure () else errorT e

/-- The number of calls of `have` by `skip_ws` (Parser.h 170-172). -/
def wsLooks : Bytes → Nat
  | [] => 4
  | c :: cs =>
    if c = 32 then 1 + wsLooks cs
    else if c = 9 then 2 + wsLooks cs
    else if c = 10 then 3 + wsLooks cs
    else if c = 13 then 4 + wsLooks cs
    else 4

/-- `skip_ws` (Parser.h 170-172). -/
def skipWsT : T Unit := looks (fun st => wsLooks st.it) skipWs

/-- `parse_boolean` (Parser.h 69-82). -/
def parseBooleanT (L : Layout) : T Bool := do
  skipWsT
  if ← haveCT 116 then
    expectLitT L.bufEnd L.rue [114, 117, 101] .true_
    emitT (.boolean true)
    return true
  if ← haveCT 102 then
    expectLitT L.bufEnd L.alse [97, 108, 115, 101] .false_
    emitT (.boolean false)
    return true
  return false

/-- The number of calls of `have(is_digit, pStr)` (Parser.h 240-247) by `parse_digits` (183-185). -/
def digitLooks : Bytes → Nat
  | [] => 1
  | c :: cs => if isDigit c then 1 + digitLooks cs else 1

/-- `parse_int_part` (Parser.h 174-180). -/
def parseIntPartT (str : Bytes) : T (Bool × Bytes) :=
  looks (fun st => match st.it with
    | x :: xs => if isPosDigit x then 1 + digitLooks xs else 1
    | [] => 1) (parseIntPart str)

/-- `parse_number` (Parser.h 84-99). -/
def parseNumberT : T Bool := do
  skipWsT
  let started ← haveCT 45
  let str : Bytes := if started then [45] else []
  if ← haveCT 48 then
    emitT (.number (str ++ [48]))
    return true
  let (ok, str) ← parseIntPartT str
  if ok then
    emitT (.number str)
    return true
  if started then errorT .digits
  return false

/-- The number of characters that `valid_code` (Parser.h 219-227) looks at. -/
def codeLooks (it : Bytes) : Nat → Nat → Nat
  | _, 0 => 0
  | i, n + 1 =>
    match peek it i with
    | none => 1
    | some c => if isHex c then 1 + codeLooks it (i + 1) n else 1

/-- `parse_codepoint` (Parser.h 210-217). -/
def parseCodepointT : T UInt8 :=
  looks (fun st => codeLooks st.it 0 4 + (if validCode st.it 0 4 = .ok true then 4 else 0)) parseCodepoint

/-- `parse_escape` (Parser.h 187-209). -/
def parseEscapeT : T UInt8 := do
  if ← haveCT 34 then return 34
  if ← haveCT 92 then return 92
  if ← haveCT 47 then return 47
  if ← haveCT 98 then return 8
  if ← haveCT 102 then return 12
  if ← haveCT 110 then return 10
  if ← haveCT 114 then return 13
  if ← haveCT 116 then return 9
  if ← haveCT 117 then parseCodepointT else errorT .escape

/-- `str.push_back(*m_It); m_It++;` (Parser.h 116-117). -/
def takeByteT : T UInt8 := looks (fun _ => 1) takeByte

/-- `m_It == m_End` (Parser.h 109). -/
def atEndT : T Bool := looks (fun _ => 1) atEnd

/-- The `while (1)` loop of `parse_string` (Parser.h 107-119). -/
def strLoopT : Nat → Bytes → T Bytes
  | 0, _ => fun _ => (.diverge, 0)
  | fuel + 1, str => do
    if ← haveCT 34 then return str
    if ← atEndT then errorT .unterminated
    if ← haveCT 92 then
      let c ← parseEscapeT
      strLoopT fuel (str ++ [c])
    else
      let c ← takeByteT
      strLoopT fuel (str ++ [c])

/-- `parse_string` (Parser.h 101-122). -/
def parseStringT (isKey : Bool) : T Bool := do
  skipWsT
  if ← haveCT 34 then
    let str ← fun st => strLoopT (st.it.length + 1) [] st
    emitT (.string str isKey)
    return true
  return false

/-- The `do`-`while` loop of `parse_array` (Parser.h 135-138). -/
def elemsLoopT (pv : T Unit) : Nat → T Unit
  | 0 => fun _ => (.diverge, 0)
  | fuel + 1 => do
    pv
    skipWsT
    if ← haveCT 44 then elemsLoopT pv fuel else pure ()

/-- `parse_array` (Parser.h 124-142). -/
def parseArrayT (pv : T Unit) : T Bool := do
  skipWsT
  if ← haveCT 91 then
    emitT .beginArray
    skipWsT
    if ← haveCT 93 then
      emitT .endArray
      return true
    fun st => elemsLoopT pv (st.it.length + 1) st
    expectCT 93 .arrayEnd
    emitT .endArray
    return true
  return false

/-- The `do`-`while` loop of `parse_object` (Parser.h 154-161). -/
def membersLoopT (pv : T Unit) : Nat → T Unit
  | 0 => fun _ => (.diverge, 0)
  | fuel + 1 => do
    if ← parseStringT true then pure () else errorT .key
    skipWsT
    expectCT 58 .colon
    pv
    skipWsT
    if ← haveCT 44 then membersLoopT pv fuel else pure ()

/-- `parse_object` (Parser.h 144-165). -/
def parseObjectT (pv : T Unit) : T Bool := do
  skipWsT
  if ← haveCT 123 then
    emitT .beginObject
    skipWsT
    if ← haveCT 125 then
      emitT .endObject
      return true
    fun st => membersLoopT pv (st.it.length + 1) st
    expectCT 125 .objectEnd
    emitT .endObject
    return true
  return false

/-- `parse_value` (Parser.h 60-67). -/
def parseValueT (L : Layout) : Nat → T Unit
  | 0 => fun _ => (.diverge, 0)
  | fuel + 1 => do
    if ← parseObjectT (parseValueT L fuel) then return ()
    if ← parseArrayT (parseValueT L fuel) then return ()
    if ← parseStringT false then return ()
    if ← parseBooleanT L then return ()
    if ← parseNumberT then return ()
    errorT .value

/-- The scan made by `Parser(const std::string&)` (Parser.h 44-54). -/
def scanT (L : Layout) (s : Bytes) : PRes Unit × Nat := parseValueT L (s.length + 1) ⟨s, []⟩

end Json
end Eni
