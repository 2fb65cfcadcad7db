import Verif.Model.HashThrow
import Verif.Spec.TableSpec
/-!
# Specification of a table whose entries may refuse to be made

Finite maps and the reports of the operations only: an insertion that fails must leave the map as it was.
-/
namespace Eni.Spec
open HThr
variable {K V : Type} [DecidableEq K]

/-- One operation: an insertion of an absent key whose entry cannot be made changes nothing and lets the exception out; everything else is as always. -/
def faultStep (dflt : V) (m : FMap K V) : FOp K V → FMap K V × TRep V
  | (.insert k, true) => if m.lookup k = none then (m, .threw) else ((tstep dflt m (.insert k)).1, .ret (tstep dflt m (.insert k)).2)
  | (.assign k v, true) => if m.lookup k = none then (m, .threw) else ((tstep dflt m (.assign k v)).1, .ret (tstep dflt m (.assign k v)).2)
  | (op, _) => ((tstep dflt m op).1, .ret (tstep dflt m op).2)

/-- A history. -/
def faultRuns (dflt : V) (m : FMap K V) : List (FOp K V) → FMap K V × List (TRep V)
  | [] => (m, [])
  | f :: fs =>
    let (m, r) := faultStep dflt m f
    let (m, rs) := faultRuns dflt m fs
    (m, r :: rs)

/-- The size limits of `TPre` along the history. -/
def FaultPres (dflt : V) (m : FMap K V) : List (FOp K V) → Prop
  | [] => True
  | f :: fs => TPre m f.1 ∧ FaultPres dflt (faultStep dflt m f).1 fs

/-- Is the report that of a removed binding? -/
def isRemoval : TRep V → Bool
  | .ret (.erased true) => true
  | _ => false

/-- Is the report an exception? -/
def isFault : TRep V → Bool
  | .threw => true
  | _ => false

/-- Number of insertions that failed. -/
def faults (rs : List (TRep V)) : Nat := rs.countP isFault

/-- Number of insertions that failed after the first binding had been removed. -/
def lateFaults (rs : List (TRep V)) : Nat := faults (rs.dropWhile fun r => !isRemoval r)

/-- An array that can take `f` late failures: `rehash(n)` asks for more than `8 f` buckets, and a table that is cleared (17 buckets at the next insertion) has
at most two. -/
def Wide (f : Nat) : TOp K V → Prop
  | .clear => f ≤ 2
  | .rehashN n => 8 * f < n
  | _ => True

end Eni.Spec
