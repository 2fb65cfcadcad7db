import Verif.Model.CharSign
import Verif.Spec.Json
import Verif.Spec.Hasher
/-!
# Specification: results that do not depend on the kind of `char`
-/
namespace Eni.Spec

/-- The keys of all objects in the value, at any depth, are ASCII. -/
inductive AsciiKeys : JV → Prop
  | int {z} : AsciiKeys (.int z)
  | bool {b} : AsciiKeys (.bool b)
  | str {s} : AsciiKeys (.str s)
  | arr {js} : (∀ j ∈ js, AsciiKeys j) → AsciiKeys (.arr js)
  | obj {ms} : (∀ k j, (k, j) ∈ ms → Ascii k) → (∀ k j, (k, j) ∈ ms → AsciiKeys j) → AsciiKeys (.obj ms)

/-- `Alike c d v w`: the value `v` of a program with `char`s of kind `c` and the value `w` of a program with `char`s of kind `d` cannot be told apart by their
programs, except by the order in which members are met: elements by index, members by lookup, sizes, and the keys met when iterating. -/
inductive Alike (c d : Plat.Ch) : Value → Value → Prop
  | undef : Alike c d .undef .undef
  | int {z} : Alike c d (.int z) (.int z)
  | bool {b} : Alike c d (.bool b) (.bool b)
  | str {s} : Alike c d (.str s) (.str s)
  | arr {vs ws} : vs.length = ws.length → (∀ (i : Nat) v w, vs[i]? = some v → ws[i]? = some w → Alike c d v w) → Alike c d (.arr vs) (.arr ws)
  | obj {m n} : SMap.size m = SMap.size n → ((SMap.bindings m).map Prod.fst).Perm ((SMap.bindings n).map Prod.fst) →
      (∀ k, ∃ o, Plat.find c m k = .ok o) → (∀ k, ∃ o, Plat.find d n k = .ok o) → (∀ k, Plat.find c m k = .ok none ↔ Plat.find d n k = .ok none) →
      (∀ k v w, Plat.find c m k = .ok (some v) → Plat.find d n k = .ok (some w) → Alike c d v w) → Alike c d (.obj m) (.obj n)

/-- An operation, built for either kind of `char`, that takes alike arguments alike: it does not ask for the order of members. -/
def TakesAlike {S : Type} (c d : Plat.Ch) (H : Plat.Ch → Base.Hooks S) : Prop :=
  (H c).init = (H d).init ∧
  (∀ vs ws : List Value, vs.length = ws.length → (∀ (i : Nat) v w, vs[i]? = some v → ws[i]? = some w → Alike c d v w) →
    (H c).parse (H c).init vs = (H d).parse (H d).init ws) ∧
  ∀ vs st, (H c).parse (H c).init vs = (st, .ok true) → (H c).gas st = (H d).gas st ∧ (H c).run st = (H d).run st

/-- Every key in the arguments has at most 65535 bytes, whatever part of the text is taken for them. -/
def ShortArgs (s : Bytes) : Prop := ∀ w t r j, s = w ++ (t ++ r) → WS w → JText t j → ShortKeys j

end Eni.Spec
