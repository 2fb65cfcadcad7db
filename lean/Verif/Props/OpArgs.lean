import Verif.Props.Scrypt
import Verif.Props.Crypto
import Verif.Props.JsonTool
/-!
# C55: ill-typed arguments
-/
namespace Eni.Props
open Spec Base Json

/-- Types of arguments. -/
inductive ArgType where
  | string
  | integer

/-- The value has the type. -/
def ArgType.has : ArgType → Value → Prop
  | .string, v => ∃ s, v = .str s
  | .integer, v => ∃ z, v = .int z

/-- The array begins with values of these types. -/
def Fits : List ArgType → List Value → Prop
  | [], _ => True
  | _ :: _, [] => False
  | t :: ts, v :: vs => t.has v ∧ Fits ts vs

/-- What a parse hook answers. -/
def answer {S : Type} (H : Hooks S) (vs : List Value) : Res Bool := (H.parse H.init vs).2

/-- C55 is false of every operation: without arguments the vector throws, which ends the process, ... -/
theorem C55_missing_false (A : Sha) (E : Scrypt.Env) (J : JsonTool.Env) (pem : Bytes → Option Crypto.Key) :
    answer Reverse.op [] = .throw .invalidVectorIndex ∧ answer (Scrypt.op A E) [] = .throw .invalidVectorIndex ∧
    answer (Crypto.encryptOp pem) [] = .throw .invalidVectorIndex ∧ answer (Crypto.decryptOp pem) [] = .throw .invalidVectorIndex ∧
    answer (JsonTool.op J) [] = .throw .invalidVectorIndex := ⟨rfl, rfl, rfl, rfl, rfl⟩

/-- ... and a number instead of a string is read as a pointer. -/
theorem C55_type_false (A : Sha) (E : Scrypt.Env) (J : JsonTool.Env) (pem : Bytes → Option Crypto.Key) (z : Int) (more : List Value) :
    answer Reverse.op (.int z :: more) = .ub .badUnion ∧ answer (Scrypt.op A E) (.int z :: more) = .ub .badUnion ∧
    answer (Crypto.encryptOp pem) (.int z :: more) = .ub .badUnion ∧ answer (Crypto.decryptOp pem) (.int z :: more) = .ub .badUnion ∧
    answer (JsonTool.op J) (.int z :: more) = .ub .badUnion := ⟨rfl, rfl, rfl, rfl, rfl⟩

/-- Both can be seen through the C entry points: `reverse_run("[]")` and `reverse_run("[0]")`. -/
theorem C55_entry_false (L : Layout) : opRun Reverse.op L (Value.print (.arr [])) = .throw .invalidVectorIndex ∧
    opRun Reverse.op L (Value.print (.arr [.int 0])) = .ub .badUnion := by
  constructor
  · have hp := parse_flat L [] (by simp)
    simp only [opRun, construct_of hp, Res.ok_bind, copyTop]
    rfl
  · have hp := parse_flat L [.int 0] (by simp [FlatArg])
    simp only [opRun, construct_of hp, Res.ok_bind, copyTop]
    rfl

theorem fits_string {vs : List Value} : Fits [.string] vs ↔ ∃ s more, vs = .str s :: more := by
  cases vs with
  | nil => simp [Fits]
  | cons v vs =>
    simp only [Fits, ArgType.has, and_true, List.cons.injEq]
    constructor
    · rintro ⟨s, rfl⟩; exact ⟨s, vs, rfl, rfl⟩
    · rintro ⟨s, _, rfl, _⟩; exact ⟨s, rfl⟩

/-- C55, exactly when it holds for reverse and scrypt: iff the first argument is a string. -/
theorem C55_one_string_partial (A : Sha) (E : Scrypt.Env) (vs : List Value) :
    ((∃ b, answer Reverse.op vs = .ok b) ↔ Fits [.string] vs) ∧ ((∃ b, answer (Scrypt.op A E) vs = .ok b) ↔ Fits [.string] vs) := by
  rw [fits_string]
  constructor <;> constructor
  · rintro ⟨b, h⟩
    cases vs with
    | nil => cases h
    | cons v vs => cases v <;> first | exact ⟨_, _, rfl⟩ | cases h
  · rintro ⟨s, more, rfl⟩
    exact ⟨true, rfl⟩
  · rintro ⟨b, h⟩
    cases vs with
    | nil => cases h
    | cons v vs => cases v <;> first | exact ⟨_, _, rfl⟩ | cases h
  · rintro ⟨s, more, rfl⟩
    exact ⟨_, rfl⟩

/-- C55 for the RSA operations: with two strings they answer, true iff the key can be read and (for decryption) the message has an even number
of characters. -/
theorem C55_two_strings_partial (pem : Bytes → Option Crypto.Key) (t m : Bytes) (more : List Value) :
    (∃ b, answer (Crypto.encryptOp pem) (.str t :: .str m :: more) = .ok b ∧ (b = true ↔ (pem (cstr t)).isSome)) ∧
    (∃ b, answer (Crypto.decryptOp pem) (.str t :: .str m :: more) = .ok b ∧ (b = true ↔ (pem (cstr t)).isSome ∧ m.length % 2 = 0)) := by
  have h0 : Value.argAt (.str t :: .str m :: more) 0 = .ok (.str t) := rfl
  have h1 : Value.argAt (.str t :: .str m :: more) 1 = .ok (.str m) := rfl
  constructor
  · cases hp : pem (cstr t) with
    | none => exact ⟨false, by simp [answer, Crypto.encryptOp, h0, Value.toStr, hp], by simp⟩
    | some k => exact ⟨true, by simp [answer, Crypto.encryptOp, h0, h1, Value.toStr, hp], by simp⟩
  · cases hp : pem (cstr t) with
    | none => exact ⟨false, by simp [answer, Crypto.decryptOp, h0, Value.toStr, hp], by simp⟩
    | some k =>
      obtain ⟨ho, he⟩ := C47_length m
      by_cases hl : m.length % 2 = 0
      · obtain ⟨s, hs, _⟩ := he hl
        exact ⟨true, by simp [answer, Crypto.decryptOp, h0, h1, Value.toStr, hp, hs], by simp [hl]⟩
      · exact ⟨false, by simp [answer, Crypto.decryptOp, h0, h1, Value.toStr, hp, ho (by omega)], by simp [hl]⟩

/-- C55 for json: an unknown function is refused, and `parseString` on the range of a string literal answers true. -/
theorem C55_json_partial (J : JsonTool.Env) (name data : Bytes) (a b : Int) (more : List Value) :
    (name ≠ JsonTool.nParseString → name ≠ JsonTool.nParseArray → name ≠ JsonTool.nArrayGet → name ≠ JsonTool.nObjectGet →
      answer (JsonTool.op J) (.str name :: .str data :: .int a :: .int b :: more) = .ok false) ∧
    ∀ p c s r, StrBody c s → 0 ∉ p ++ c → p.length + c.length + 2 < 2 ^ 31 → data = p ++ (34 :: (c ++ [34]) ++ r) → a = p.length →
      b = p.length + c.length + 2 → answer (JsonTool.op J) [.str JsonTool.nParseString, .str data, .int a, .int b] = .ok true := by
  constructor
  · intro h1 h2 h3 h4
    have g0 : Value.argAt (.str name :: .str data :: .int a :: .int b :: more) 0 = .ok (.str name) := rfl
    have g1 : Value.argAt (.str name :: .str data :: .int a :: .int b :: more) 1 = .ok (.str data) := rfl
    have g2 : Value.argAt (.str name :: .str data :: .int a :: .int b :: more) 2 = .ok (.int a) := rfl
    have g3 : Value.argAt (.str name :: .str data :: .int a :: .int b :: more) 3 = .ok (.int b) := rfl
    have : JsonTool.parseArgs J (.str name :: .str data :: .int a :: .int b :: more) = .ok none := by
      simp only [JsonTool.parseArgs, g0, g1, g2, g3, Value.toStr, Value.toInteger, Res.ok_bind, if_neg h1, if_neg h2, if_neg h3, if_neg h4]
    simp [answer, JsonTool.op, this]
  · intro p c s r hs h0 hl hd ha hb
    have := C52_partial J p c s r hs h0 hl
    subst hd ha hb
    unfold stringIn at this
    push_cast at this
    simp only [answer, JsonTool.op, this]

/-- C55 for json is false even for well-typed arguments: a number in the range is read as a string (`parseString` of `1`), and a range that the
tokenizer refuses makes it throw. -/
theorem C55_json_false (J : JsonTool.Env) (data : Bytes) (hj : J.jsmn data 0 0 = none) :
    answer (JsonTool.op J) [.str JsonTool.nParseString, .str [49], .int 0, .int 1] = .ub .badUnion ∧
    answer (JsonTool.op J) [.str JsonTool.nParseArray, .str data, .int 0, .int 0] = .throw .stdLengthError := by
  constructor
  · have h := stringIn_eq J [49] 0 1 (by decide) (by decide) (by decide) (by decide)
    unfold stringIn at h
    have e1 : JsonTool.subString [49] 0 1 = .ok [49] := by decide +kernel
    have e2 : JsonTool.parseString J.L [49] = .ub .badUnion := by rfl
    rw [e1, Res.ok_bind, e2] at h
    simp [answer, JsonTool.op, h]
  · have g0 : Value.argAt [.str JsonTool.nParseArray, .str data, .int 0, .int 0] 0 = .ok (.str JsonTool.nParseArray) := rfl
    have g1 : Value.argAt [.str JsonTool.nParseArray, .str data, .int 0, .int 0] 1 = .ok (.str data) := rfl
    have g2 : Value.argAt [.str JsonTool.nParseArray, .str data, .int 0, .int 0] 2 = .ok (.int 0) := rfl
    have g3 : Value.argAt [.str JsonTool.nParseArray, .str data, .int 0, .int 0] 3 = .ok (.int 0) := rfl
    have hne : JsonTool.nParseArray ≠ JsonTool.nParseString := by decide +kernel
    have : JsonTool.parseArgs J [.str JsonTool.nParseArray, .str data, .int 0, .int 0] = .throw .stdLengthError := by
      simp only [JsonTool.parseArgs, g0, g1, g2, g3, Value.toStr, Value.toInteger, Res.ok_bind, if_neg hne, if_true]
      rw [J.hconv 0 (by decide) (by decide)]
      simp [JsonTool.parseArray, JsonTool.arrayTokens, JsonTool.internalParse, hj]
    simp [answer, JsonTool.op, this]

/-- A string and a number; an unknown name. -/
example : Fits [.string] [.str [97], .int 1] ∧ ¬ Fits [.string] [.int 1] ∧ ([97] : Bytes) ≠ JsonTool.nParseString := by
  refine ⟨⟨⟨_, rfl⟩, trivial⟩, ?_, by decide +kernel⟩
  rintro ⟨⟨s, h⟩, _⟩
  cases h

end Eni.Props
