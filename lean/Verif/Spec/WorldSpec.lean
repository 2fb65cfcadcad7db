import Verif.Spec.TableSpec
/-!
# Specification: programs with several table variables, as programs with map variables

A table variable is a finite map plus one observable bit: whether the table owns a bucket array. The bit is needed because
the code treats tables without array specially (copying them is a defect, see C07).
-/
namespace Eni.Spec
variable {K V : Type} [DecidableEq K]

/-- A map variable. -/
structure MVar (K V : Type) where
  map : FMap K V
  arr : Bool

/-- A state: the live variables. -/
abbrev MWorld (K V : Type) := Nat → Option (MVar K V)

def MWorld.put (w : MWorld K V) (i : Nat) (x : Option (MVar K V)) : MWorld K V := fun j => if j = i then x else w j

/-- Effect of a statement on map variables: copying copies the map, moving leaves an empty map behind. -/
def mstep (dflt : V) (w : MWorld K V) : Stmt K V → MWorld K V
  | .new i n => w.put i (some ⟨[], decide (n ≠ 0)⟩)
  | .copyNew i j => w.put i (w j)
  | .moveNew i j => (w.put j (some ⟨[], false⟩)).put i (w j)
  | .copyAssign i j => w.put i (w j)
  | .moveAssign i j => if i = j then w else (w.put j (some ⟨[], false⟩)).put i (w j)
  | .destroy i => w.put i none
  | .insert i k => w.put i ((w i).map fun x => ⟨x.map.insertNew k dflt, true⟩)
  | .assign i k v => w.put i ((w i).map fun x => ⟨x.map.set k v, true⟩)
  | .erase i k => w.put i ((w i).map fun x => ⟨x.map.erase k, x.arr⟩)
  | .find _ _ => w
  | .clear i => w.put i ((w i).map fun x => ⟨[], x.arr && x.map.isEmpty⟩)
  | .rehash _ => w
  | .rehashN i _ => w.put i ((w i).map fun x => ⟨x.map, true⟩)

/-- The rules a program must follow: variables are used while alive; construction makes a new variable; a table is copied
only if it owns an array; copy assignment is not to itself; and the size limits of `TPre`. -/
def MPre (w : MWorld K V) : Stmt K V → Prop
  | .new i n => w i = none ∧ n ≤ 1431524664
  | .copyNew i j => w i = none ∧ ∃ x, w j = some x ∧ x.arr = true
  | .moveNew i j => w i = none ∧ ∃ x, w j = some x
  | .copyAssign i j => i ≠ j ∧ (∃ x, w i = some x) ∧ ∃ x, w j = some x ∧ x.arr = true
  | .moveAssign i j => (∃ x, w i = some x) ∧ ∃ x, w j = some x
  | .destroy i => ∃ x, w i = some x
  | .insert i _ => ∃ x, w i = some x ∧ x.map.length < 1073643498
  | .assign i _ _ => ∃ x, w i = some x ∧ x.map.length < 1073643498
  | .erase i _ => ∃ x, w i = some x
  | .find i _ => ∃ x, w i = some x
  | .clear i => ∃ x, w i = some x
  | .rehash i => ∃ x, w i = some x
  | .rehashN i n => ∃ x, w i = some x ∧ x.map.length < n ∧ n < 1431655766

def mrun (dflt : V) (w : MWorld K V) : List (Stmt K V) → MWorld K V
  | [] => w
  | s :: ss => mrun dflt (mstep dflt w s) ss

/-- The rules hold along the program. -/
def MPres (dflt : V) (w : MWorld K V) : List (Stmt K V) → Prop
  | [] => True
  | s :: ss => MPre w s ∧ MPres dflt (mstep dflt w s) ss

/-- The number of bindings of a variable. -/
def MWorld.card (w : MWorld K V) (i : Nat) : Nat :=
  match w i with
  | some x => x.map.length
  | none => 0

/-- The bindings that a statement forgets without telling: those of the destination of an assignment. -/
def forgets (w : MWorld K V) : Stmt K V → Nat
  | .copyAssign i _ => w.card i
  | .moveAssign i j => if i = j then 0 else w.card i
  | _ => 0

/-- The bindings forgotten by a program. -/
def forgotten (dflt : V) (w : MWorld K V) : List (Stmt K V) → Nat
  | [] => 0
  | s :: ss => forgets w s + forgotten dflt (mstep dflt w s) ss

/-- The arrays that a statement drops: that of the destination of a move assignment, even if it holds no binding. -/
def drops (w : MWorld K V) : Stmt K V → Nat
  | .moveAssign i j =>
    match w i with
    | some x => if i ≠ j ∧ x.arr = true then 1 else 0
    | none => 0
  | _ => 0

/-- The arrays dropped by a program. -/
def dropped (dflt : V) (w : MWorld K V) : List (Stmt K V) → Nat
  | [] => 0
  | s :: ss => drops w s + dropped dflt (mstep dflt w s) ss

end Eni.Spec
