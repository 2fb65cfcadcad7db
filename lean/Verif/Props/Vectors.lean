import Verif.Props.Tools
import Verif.Model.EniTypes
import Verif.Model.StringMap
/-!
# The expectations of the project's regression tests, checked on the model

These are no properties but a check of the model: the commands of test/t0002, t0006, t0007, t0008, t0009 and of test/jsontests, with the output that the tests expect,
and some of the unit tests in test/unittests and tools/eni_crypto/test.
The tokenizer is given by the tokens of the texts in these tests.
-/
namespace Eni.Props.Vectors
open Base Json Cli

def lay : Layout := ⟨100, 10, 20⟩

/-- A tokenizer that knows the texts of the tests. -/
def env : JsonTool.Env where
  jsmn := fun data _ _ =>
    if data = "[\"Hello\", \"World!\"]".toUTF8.toList then some [⟨.array, 0, 19⟩, ⟨.string, 2, 7⟩, ⟨.string, 11, 17⟩]
    else if data = "{\"a\": \"bcdef\", \"b\": \"hijkl\"}".toUTF8.toList then
      some [⟨.object, 0, 28⟩, ⟨.string, 2, 3⟩, ⟨.string, 7, 12⟩, ⟨.string, 16, 17⟩, ⟨.string, 21, 26⟩]
    else if data = "[\"foo\", [\"nested\"]]".toUTF8.toList then some [⟨.array, 0, 19⟩, ⟨.string, 2, 5⟩, ⟨.array, 8, 18⟩, ⟨.string, 10, 16⟩]
    else none
  L := lay
  conv := fun z => z
  hconv := fun _ _ _ => rfl

def run {S : Type} (H : Hooks S) (p : String) : Res Done := runMain (oneLib [108] [111] H lay) [[108], [111], p.toUTF8.toList]
def gas {S : Type} (H : Hooks S) (p : String) : Res Done := gasMain (oneLib [108] [111] H lay) [[108], [111], p.toUTF8.toList]
def line (s : String) : Res Done := .ok ⟨s.toUTF8.toList ++ [10], [], 0⟩

/-- Does the parser accept a text? -/
def accepted (s : String) : Option Bool :=
  match parse lay s.toUTF8.toList with
  | .ok p => some p.success
  | _ => none

/-- t0002-examples-eni-reverse.sh -/
example : gas Reverse.op "[\"Hello World!\"]" = line "120" ∧ run Reverse.op "[\"Hello World!\"]" = line "[\"!dlroW olleH\"]" := by decide +kernel

/-- t0006/json_parse_error.cpp -/
example : accepted "{" = some false := by decide +kernel

/-- t0007/bug_493629.cpp -/
example : accepted "{\"0\":{\"0...16\\u" = some false := by decide +kernel

/-- t0008-json-parseString.sh -/
example : run (JsonTool.op env) "[\"parseString\", \"\\\"Hello World!\\\"\", 0, 14]" = line "[\"Hello World!\"]" := by decide +kernel

/-- t0009-json-arrayGet.sh -/
example : run (JsonTool.op env) "[\"arrayGet\", \"[\\\"Hello\\\", \\\"World!\\\"]\", 0, 19, 0]" = line "[\"0000000100000008\"]" ∧
    run (JsonTool.op env) "[\"arrayGet\", \"[\\\"Hello\\\", \\\"World!\\\"]\", 0, 19, 1]" = line "[\"0000000a00000012\"]" := by decide +kernel

/-- jsontests/test_basic_containers.py: `test_object_a`, `test_object_b` -/
example : run (JsonTool.op env) "[\"objectGet\", \"{\\\"a\\\": \\\"bcdef\\\", \\\"b\\\": \\\"hijkl\\\"}\", 0, 28, \"a\"]" = line "[\"000000060000000d\"]" ∧
    run (JsonTool.op env) "[\"objectGet\", \"{\\\"a\\\": \\\"bcdef\\\", \\\"b\\\": \\\"hijkl\\\"}\", 0, 28, \"b\"]" = line "[\"000000140000001b\"]" := by decide +kernel

/-- jsontests/test_nested_containers.py -/
example : run (JsonTool.op env) "[\"arrayGet\", \"[\\\"foo\\\", [\\\"nested\\\"]]\", 0, 19, 0]" = line "[\"0000000100000006\"]" ∧
    run (JsonTool.op env) "[\"arrayGet\", \"[\\\"foo\\\", [\\\"nested\\\"]]\", 0, 19, 1]" = line "[\"0000000800000012\"]" := by decide +kernel

/-- jsontests/test_basic_data_types.py -/
example : run (JsonTool.op env) "[\"parseString\", \"??????????????\\\"Hello, World\\\"\", 14, 28]" = line "[\"Hello, World\"]" ∧
    run (JsonTool.op env) "[\"parseString\", \"\\\"Hello, World\\\"??????????????\", 0, 14]" = line "[\"Hello, World\"]" := by decide +kernel

/-- unittests/data/0.json -/
def file0 : Bytes := "{\n    \"name\": \"dywu\",\n    \"age\": 18,\n    \"have_car\": true,\n    \"escape\": \"\\\"\\\\n\\\"\\u0001\\n\",\n    \"colleagues\": [\"hydai\", \"yi\", \"dm4\", \"katy\"],\n    \"array\": [[\"a\",8], \"c\"]\n}\n".toUTF8.toList

/-- unittests/json/ParserTest.cpp: `file_test` -/
def fileTest : Res (Bytes × Int × Bytes) := do
  let p ← parse lay file0
  let array ← p.root.index "array".toUTF8.toList
  let a0 ← array.indexInt 0
  let a00 ← a0.indexInt 0
  let a ← a00.toStr
  let age ← p.root.index "age".toUTF8.toList
  let n ← age.toInteger
  let str ← p.root.index "escape".toUTF8.toList
  let e ← str.toStr
  .ok (a, n, e)

example : fileTest = .ok ([97], 18, [34, 92, 110, 34, 1, 10]) := by decide +kernel

/-- unittests/json/ParserTest.cpp: `invalid_json_test` -/
example : accepted "{}" = some true ∧ accepted "[]" = some true := by decide +kernel

/-- unittests/adt/StringMapTest.cpp: `typical` -/
def mapTest : Res (List (SRet Int)) := do
  let (_, rs) ← SMap.run 0 (SMap.new 0 : SMap Int) [.size, .assign "first_key".toUTF8.toList 10, .size, .index "first_key".toUTF8.toList, .at_ "not_exist".toUTF8.toList,
    .assign "first_key".toUTF8.toList 20, .at_ "first_key".toUTF8.toList, .find "not_exist".toUTF8.toList, .erase "first_key".toUTF8.toList, .size]
  .ok rs

example : mapTest = .ok [.size 0, .done, .size 1, .val 10, .thrown, .done, .val 20, .found none, .erased true, .size 0] := by decide +kernel

/-- unittests/EniTypesTest.cpp -/
example : toStringU (UNum.ofInt 64 (2 ^ 64 - 1)) = "18446744073709551615".toUTF8.toList ∧
    toStringU (UNum.ofInt 128 (2 ^ 128 - 1)) = "340282366920938463463374607431768211455".toUTF8.toList ∧
    toStringU (UNum.ofInt 256 ((2 ^ 128 - 1) * (2 ^ 128 - 1) + (2 ^ 128 - 1) * 2)) =
      "115792089237316195423570985008687907853269984665640564039457584007913129639935".toUTF8.toList := by decide +kernel

/-- eni_crypto/test/HexTest.cpp -/
example : Crypto.str2hex "A+!".toUTF8.toList = "412b21".toUTF8.toList ∧ Crypto.hex2str "412b21".toUTF8.toList = .ok (some "A+!".toUTF8.toList) := by decide +kernel

end Eni.Props.Vectors
