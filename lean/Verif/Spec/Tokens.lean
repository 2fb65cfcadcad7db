import Verif.Spec.Json
import Verif.Model.JsonTool
/-!
# Token lists of JSON texts

What the documentation of jsmn says about its result: the tokens of a text in the order of their first characters, an array or object with
its brackets, a string without its quotes, every other value as it is written. Stated for all of JSON (numbers with fractions and `null`
are primitives), without reference to an algorithm.
-/
namespace Eni.Spec
open JsonTool (Tok Kind)

/-- Text between quotes: a quote only after a backslash. -/
inductive RawBody : Bytes → Prop
  | nil : RawBody []
  | raw {c b} : c ≠ 34 → c ≠ 92 → RawBody b → RawBody (c :: b)
  | esc {c b} : RawBody b → RawBody (92 :: c :: b)

/-- Characters of numbers and of `true`, `false`, `null`. -/
def PrimChar (c : UInt8) : Prop := (48 ≤ c ∧ c ≤ 57) ∨ (97 ≤ c ∧ c ≤ 122) ∨ c = 69 ∨ c = 43 ∨ c = 45 ∨ c = 46

instance : DecidablePred PrimChar := fun c => by unfold PrimChar; infer_instance

/-- A value inside of a container: where its text begins, the text, its own token and the tokens inside. -/
structure Child where
  off : Nat
  text : Bytes
  tok : Tok
  sub : List Tok

def Child.toks (c : Child) : List Tok := c.tok :: c.sub

mutual
/-- `TVal off t top sub`: the text `t` beginning at position `off` is a JSON value with token `top`; `sub` are the tokens inside. -/
inductive TVal : Nat → Bytes → Tok → List Tok → Prop
  | str {off b} : RawBody b → TVal off (34 :: (b ++ [34])) ⟨.string, off + 1, off + 1 + b.length⟩ []
  | prim {off t} : t ≠ [] → (∀ c ∈ t, PrimChar c) → TVal off t ⟨.primitive, off, off + t.length⟩ []
  | arr {off t cs} : TElems (off + 1) t cs → TVal off (91 :: (t ++ [93])) ⟨.array, off, off + t.length + 2⟩ (cs.flatMap Child.toks)
  | obj {off t ms} : TMembers (off + 1) t ms →
      TVal off (123 :: (t ++ [125])) ⟨.object, off, off + t.length + 2⟩ (ms.flatMap fun m => m.1.toks ++ m.2.toks)
/-- The inside of an array: values separated by commas. -/
inductive TElems : Nat → Bytes → List Child → Prop
  | none {off w} : WS w → TElems off w []
  | one {off w t w' top sub} : WS w → TVal (off + w.length) t top sub → WS w' → TElems off (w ++ (t ++ w')) [⟨off + w.length, t, top, sub⟩]
  | cons {off w t w' top sub r c cs} : WS w → TVal (off + w.length) t top sub → WS w' →
      TElems (off + w.length + t.length + w'.length + 1) r (c :: cs) →
      TElems off (w ++ (t ++ (w' ++ 44 :: r))) (⟨off + w.length, t, top, sub⟩ :: c :: cs)
/-- The inside of an object: pairs of a string and a value. -/
inductive TMembers : Nat → Bytes → List (Child × Child) → Prop
  | none {off w} : WS w → TMembers off w []
  | one {off w b w1 w2 t w3 top sub} : WS w → RawBody b → WS w1 → WS w2 →
      TVal (off + w.length + b.length + 2 + w1.length + 1 + w2.length) t top sub → WS w3 →
      TMembers off (w ++ 34 :: (b ++ 34 :: (w1 ++ 58 :: (w2 ++ (t ++ w3)))))
        [(⟨off + w.length, 34 :: (b ++ [34]), ⟨.string, off + w.length + 1, off + w.length + 1 + b.length⟩, []⟩,
          ⟨off + w.length + b.length + 2 + w1.length + 1 + w2.length, t, top, sub⟩)]
  | cons {off w b w1 w2 t w3 top sub r m ms} : WS w → RawBody b → WS w1 → WS w2 →
      TVal (off + w.length + b.length + 2 + w1.length + 1 + w2.length) t top sub → WS w3 →
      TMembers (off + w.length + b.length + 2 + w1.length + 1 + w2.length + t.length + w3.length + 1) r (m :: ms) →
      TMembers off (w ++ 34 :: (b ++ 34 :: (w1 ++ 58 :: (w2 ++ (t ++ (w3 ++ 44 :: r))))))
        ((⟨off + w.length, 34 :: (b ++ [34]), ⟨.string, off + w.length + 1, off + w.length + 1 + b.length⟩, []⟩,
          ⟨off + w.length + b.length + 2 + w1.length + 1 + w2.length, t, top, sub⟩) :: m :: ms)
end

/-- The text stands at its position in `data`. -/
def At (data : Bytes) (off : Nat) (t : Bytes) : Prop := (data.drop off).take t.length = t

/-- The 16 digits for the range from `a` to `b`. -/
def RangeCode (a b : Nat) (x : Bytes) : Prop :=
  x.length = 16 ∧ (∀ c ∈ x, (48 ≤ c ∧ c ≤ 57) ∨ (97 ≤ c ∧ c ≤ 102)) ∧
  (x.take 8).foldl (fun n c => 16 * n + (hexOf c).getD 0) 0 = a ∧ (x.drop 8).foldl (fun n c => 16 * n + (hexOf c).getD 0) 0 = b

end Eni.Spec
