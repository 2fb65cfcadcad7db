import Verif.Model.HashVary
import Verif.Spec.FMap
/-!
# What a table with an inconsistent hash function is: a finite map on pairs of key and hash value

Independent of buckets and of the functions of the model; only the types of operations and reports are used.
-/
namespace Eni.Spec
variable {K V : Type} [DecidableEq K]

/-- The effect of one operation during which the hash function is `f`. A binding is known by its key together with the hash value the key had
when the binding was made. -/
def hvstep (dflt : V) (f : K → UInt32) (m : FMap (K × UInt32) V) : HVOp K V → FMap (K × UInt32) V × TRet V
  | .op (.insert k) =>
    match m.lookup (k, f k) with
    | some v => (m, .inserted true v)
    | none => (((k, f k), dflt) :: m, .inserted false dflt)
  | .op (.assign k v) => (m.set (k, f k) v, .inserted (m.lookup (k, f k)).isSome v)
  | .op (.erase k) => (m.erase (k, f k), .erased (m.lookup (k, f k)).isSome)
  | .op (.find k) => (m, .found (m.lookup (k, f k)))
  | .op .clear => ([], .done)
  | .op .rehash => (m, .done)
  | .op (.rehashN _) => (m, .done)
  | .rekey k k2 =>
    match m.lookup (k, f k) with
    | some v => (((k2, f k), v) :: m.erase (k, f k), .found (some v))
    | none => (m, .found none)

/-- The effect of a history. -/
def hvruns (dflt : V) (m : FMap (K × UInt32) V) : List ((K → UInt32) × HVOp K V) → FMap (K × UInt32) V × List (TRet V)
  | [] => (m, [])
  | (f, op) :: ops =>
    let (m, r) := hvstep dflt f m op
    let (m, rs) := hvruns dflt m ops
    (m, r :: rs)

/-- The size limits; and a key may be overwritten only by itself or by one that is not yet bound under the same hash value. -/
def HVPre (f : K → UInt32) (m : FMap (K × UInt32) V) : HVOp K V → Prop
  | .op (.insert _) => m.length < 1073643498
  | .op (.assign _ _) => m.length < 1073643498
  | .op (.rehashN n) => m.length < n ∧ n < 1431655766
  | .rekey k k2 => k2 = k ∨ m.lookup (k2, f k) = none
  | _ => True

/-- The limits hold along the history. -/
def HVPres (dflt : V) (m : FMap (K × UInt32) V) : List ((K → UInt32) × HVOp K V) → Prop
  | [] => True
  | (f, op) :: ops => HVPre f m op ∧ HVPres dflt (hvstep dflt f m op).1 ops

end Eni.Spec
