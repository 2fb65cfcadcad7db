import Verif.Model.JsonParser
/-!
# `json::Parser` in programs of several parts (include/eni/json/Parser.h)

`Parser.h` declares the exception class `ParserError` in an unnamed namespace (33-35): every translation unit that includes the header has a class of its
own, and a handler for one of them does not catch another. The member functions of `json::Parser` are inline: a call is either expanded in place or goes
to the one definition that the linker (or the dynamic linker) has chosen. The header is included by `lib/eni.cpp` (8), which becomes the shared library
`eni` (CMakeLists.txt 41), and by `examples/eni/json/eni_json.cpp` (9), which becomes a module of its own (CMakeLists.txt 15).

The standard makes such programs undefined (the definitions of `json::Parser` differ). Here they do what compilers and linkers make of them: a part is a
translation unit, and for each function that is running it is known which part its code comes from.
-/
namespace Eni.Link
open Json

/-- The functions through which a `ParserError` may pass; `caller` is the code that declares the `Parser` (eni.cpp 16, eni_json.cpp 15). -/
inductive Fn where
  | caller | ctor | value | object | array | string | boolean | number | escape | codepoint | expectC | expectS | error
  deriving DecidableEq, Repr

/-- What compilers and linkers have decided. `link g`: the part whose definition of `g` is called where the call is not expanded. `inl p f g`: in the code
of `f` that comes from part `p`, calls of `g` are expanded in place. Simplified: all calls of `g` in the same code are treated alike. -/
structure Build where
  link : Fn → Nat
  inl : Nat → Fn → Fn → Bool

/-- The part that the code of `g` comes from when it is called by code of `f` from part `p`. -/
def Build.part (b : Build) (p : Nat) (f g : Fn) : Nat := if b.inl p f g then p else b.link g

/-- Outcome of a parser function: `thrown e ty st` is the exception `ParserError` of part `ty`, after the message `e`. -/
inductive Out (α : Type) where
  | ok (a : α) (st : PState)
  | thrown (e : PErr) (ty : Nat) (st : PState)
  | ub (u : UB)
  | diverge
  deriving DecidableEq, Repr

/-- A parser function. -/
abbrev Q (α : Type) := PState → Out α

def Q.bind {α β : Type} (x : Q α) (f : α → Q β) : Q β := fun st =>
  match x st with
  | .ok a st' => f a st'
  | .thrown e ty st' => .thrown e ty st'
  | .ub u => .ub u
  | .diverge => .diverge

instance : Monad Q where
  pure a := fun st => .ok a st
  bind := Q.bind

/-- A function of Model/JsonParser that throws nothing, or the rest of one after the test that throws. -/
def ofP {α : Type} (p : Nat) (x : P α) : Q α := fun st =>
  match x st with
  | .ok a st' => .ok a st'
  | .err e st' => .thrown e p st'
  | .ub u => .ub u
  | .diverge => .diverge

section
variable (b : Build)

/-- `parse_error` (Parser.h 282-285), called in code of `f` from part `p`: the class thrown is the one of the part that its code comes from. -/
def error {α : Type} (p : Nat) (f : Fn) (e : PErr) : Q α := fun st => .thrown e (b.part p f .error) st

/-- `expect(char, msg)` (Parser.h 269-273), called in code of `f` from part `p`. -/
def expectC (p : Nat) (f : Fn) (c : UInt8) (e : PErr) : Q Unit := do
  if ← ofP p (haveC c) then pure () else error b (b.part p f .expectC) .expectC e

/-- `expect(const char*, msg)` (Parser.h 276-280). -/
def expectS (p : Nat) (f : Fn) (bufEnd addr : Nat) (pat : Bytes) (e : PErr) : Q Unit := do
  if ← ofP p (haveLit bufEnd addr pat) then pure () else error b (b.part p f .expectS) .expectS e

/-- `parse_boolean` (Parser.h 69-82), code from part `p`. -/
def parseBoolean (L : Layout) (p : Nat) : Q Bool := do
  ofP p skipWs
  if ← ofP p (haveC 116) then
    expectS b p .boolean L.bufEnd L.rue [114, 117, 101] .true_
    ofP p (emit (.boolean true))
    return true
  if ← ofP p (haveC 102) then
    expectS b p .boolean L.bufEnd L.alse [97, 108, 115, 101] .false_
    ofP p (emit (.boolean false))
    return true
  return false

/-- `parse_number` (Parser.h 84-99). -/
def parseNumber (p : Nat) : Q Bool := do
  ofP p skipWs
  let started ← ofP p (haveC 45)
  let str : Bytes := if started then [45] else []
  if ← ofP p (haveC 48) then
    ofP p (emit (.number (str ++ [48])))
    return true
  let (ok, str) ← ofP p (parseIntPart str)
  if ok then
    ofP p (emit (.number str))
    return true
  if started then error b p .number .digits
  return false

/-- `parse_codepoint` (Parser.h 210-217). -/
def parseCodepoint (p : Nat) : Q UInt8 := fun st =>
  match validCode st.it 0 4 with
  | .ok false => error b p .codepoint .code st
  | _ => ofP p Json.parseCodepoint st

/-- `parse_escape` (Parser.h 187-209). -/
def parseEscape (p : Nat) : Q UInt8 := do
  if ← ofP p (haveC 34) then return 34
  if ← ofP p (haveC 92) then return 92
  if ← ofP p (haveC 47) then return 47
  if ← ofP p (haveC 98) then return 8
  if ← ofP p (haveC 102) then return 12
  if ← ofP p (haveC 110) then return 10
  if ← ofP p (haveC 114) then return 13
  if ← ofP p (haveC 116) then return 9
  if ← ofP p (haveC 117) then parseCodepoint b (b.part p .escape .codepoint) else error b p .escape .escape

/-- The loop of `parse_string` (Parser.h 107-119). -/
def strLoop (p : Nat) : Nat → Bytes → Q Bytes
  | 0, _ => fun _ => .diverge
  | fuel + 1, str => do
    if ← ofP p (haveC 34) then return str
    if ← ofP p atEnd then error b p .string .unterminated
    if ← ofP p (haveC 92) then
      let c ← parseEscape b (b.part p .string .escape)
      strLoop p fuel (str ++ [c])
    else
      let c ← ofP p takeByte
      strLoop p fuel (str ++ [c])

/-- `parse_string` (Parser.h 101-122). -/
def parseString (isKey : Bool) (p : Nat) : Q Bool := do
  ofP p skipWs
  if ← ofP p (haveC 34) then
    let str ← fun st => strLoop b p (st.it.length + 1) [] st
    ofP p (emit (.string str isKey))
    return true
  return false

/-- The loop of `parse_array` (Parser.h 135-138); `pv` is `parse_value` as called there. -/
def elemsLoop (pv : Q Unit) (p : Nat) : Nat → Q Unit
  | 0 => fun _ => .diverge
  | fuel + 1 => do
    pv
    ofP p skipWs
    if ← ofP p (haveC 44) then elemsLoop pv p fuel else pure ()

/-- `parse_array` (Parser.h 124-142); `pv q` is the code of `parse_value` from part `q`. -/
def parseArray (pv : Nat → Q Unit) (p : Nat) : Q Bool := do
  ofP p skipWs
  if ← ofP p (haveC 91) then
    ofP p (emit .beginArray)
    ofP p skipWs
    if ← ofP p (haveC 93) then
      ofP p (emit .endArray)
      return true
    fun st => elemsLoop (pv (b.part p .array .value)) p (st.it.length + 1) st
    expectC b p .array 93 .arrayEnd
    ofP p (emit .endArray)
    return true
  return false

/-- The loop of `parse_object` (Parser.h 154-161). -/
def membersLoop (pv : Nat → Q Unit) (p : Nat) : Nat → Q Unit
  | 0 => fun _ => .diverge
  | fuel + 1 => do
    if ← parseString b true (b.part p .object .string) then pure () else error b p .object .key
    ofP p skipWs
    expectC b p .object 58 .colon
    pv (b.part p .object .value)
    ofP p skipWs
    if ← ofP p (haveC 44) then membersLoop pv p fuel else pure ()

/-- `parse_object` (Parser.h 144-165). -/
def parseObject (pv : Nat → Q Unit) (p : Nat) : Q Bool := do
  ofP p skipWs
  if ← ofP p (haveC 123) then
    ofP p (emit .beginObject)
    ofP p skipWs
    if ← ofP p (haveC 125) then
      ofP p (emit .endObject)
      return true
    fun st => membersLoop b pv p (st.it.length + 1) st
    expectC b p .object 125 .objectEnd
    ofP p (emit .endObject)
    return true
  return false

/-- `parse_value` (Parser.h 60-67). -/
def parseValue (L : Layout) : Nat → Nat → Q Unit
  | 0, _ => fun _ => .diverge
  | fuel + 1, p => do
    if ← parseObject b (parseValue L fuel) (b.part p .value .object) then return ()
    if ← parseArray b (parseValue L fuel) (b.part p .value .array) then return ()
    if ← parseString b false (b.part p .value .string) then return ()
    if ← parseBoolean b L (b.part p .value .boolean) then return ()
    if ← parseNumber b (b.part p .value .number) then return ()
    error b p .value .value

/-- What declaring a `Parser` ends with: an object, or an exception `ParserError` of part `ty` that leaves the constructor. -/
inductive Made where
  | parser (r : Parsed)
  | escaped (ty : Nat)

/-- `Parser(const std::string&)` (Parser.h 44-54), declared in part `u`: the handler (49) is for the class of the part that the code of the constructor comes
from. -/
def parse (u : Nat) (L : Layout) (s : Bytes) : Res Made :=
  let p := b.part u .caller .ctor
  match parseValue b L (s.length + 1) (b.part p .ctor .value) ⟨s, []⟩ with
  | .ok _ st => do
    let cb ← cbRun .init st.ev
    .ok (.parser ⟨true, cb.root⟩)
  | .thrown _ ty st => do
    let cb ← cbRun .init st.ev
    if ty = p then .ok (.parser ⟨false, cb.root⟩) else .ok (.escaped ty)
  | .ub u => .ub u
  | .diverge => .diverge

end

end Eni.Link
