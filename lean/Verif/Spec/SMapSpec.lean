import Verif.Spec.FMap
import Verif.Model.StringMap
/-!
# Specification of `StringMap` histories by finite maps
-/
namespace Eni.Spec
variable {V : Type}

/-- Effect and report of one operation. -/
def sstep (dflt : V) (m : FMap Bytes V) : SOp V → FMap Bytes V × SRet V
  | .assign k v => (m.set k v, .done)
  | .index k => (m.insertNew k dflt, .val ((m.lookup k).getD dflt))
  | .at_ k => (m, match m.lookup k with | some v => .val v | none => .thrown)
  | .erase k => (m.erase k, .erased (m.lookup k).isSome)
  | .find k => (m, .found (m.lookup k))
  | .size => (m, .size m.length)

def sruns (dflt : V) (m : FMap Bytes V) : List (SOp V) → FMap Bytes V × List (SRet V)
  | [] => (m, [])
  | op :: ops =>
    let (m, r) := sstep dflt m op
    let (m, rs) := sruns dflt m ops
    (m, r :: rs)

/-- The key of an operation. -/
def skey : SOp V → Bytes
  | .assign k _ => k
  | .index k => k
  | .at_ k => k
  | .erase k => k
  | .find k => k
  | .size => []

end Eni.Spec
