import Verif.Spec.FMap
import Verif.Model.HashTable
/-!
# Specification: what a history of table operations means for a finite map
-/
namespace Eni.Spec
variable {K V : Type} [DecidableEq K]

/-- The effect of one operation on a finite map and the report it must give. -/
def tstep (dflt : V) (m : FMap K V) : TOp K V → FMap K V × TRet V
  | .insert k =>
    match m.lookup k with
    | some v => (m, .inserted true v)
    | none => ((k, dflt) :: m, .inserted false dflt)
  | .assign k v => (m.set k v, .inserted (m.lookup k).isSome v)
  | .erase k => (m.erase k, .erased (m.lookup k).isSome)
  | .find k => (m, .found (m.lookup k))
  | .clear => ([], .done)
  | .rehash => (m, .done)
  | .rehashN _ => (m, .done)

/-- The effect of a history. -/
def truns (dflt : V) (m : FMap K V) : List (TOp K V) → FMap K V × List (TRet V)
  | [] => (m, [])
  | op :: ops =>
    let (m, r) := tstep dflt m op
    let (m, rs) := truns dflt m ops
    (m, r :: rs)

/-- The documented size limits: fewer than 1073643498 bindings (about 2^30) before a new one is inserted, and `rehash(n)` only with
`n` larger than the number of bindings and below 1431655766. -/
def TPre (m : FMap K V) : TOp K V → Prop
  | .insert _ => m.length < 1073643498
  | .assign _ _ => m.length < 1073643498
  | .rehashN n => m.length < n ∧ n < 1431655766
  | _ => True

/-- The limits hold along the history. -/
def TPres (dflt : V) (m : FMap K V) : List (TOp K V) → Prop
  | [] => True
  | op :: ops => TPre m op ∧ TPres dflt (tstep dflt m op).1 ops

end Eni.Spec
