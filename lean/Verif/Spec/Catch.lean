import Verif.Model.Catch
import Verif.Model.Vector
/-!
What a user of the library expects of its exceptions, written as tables, and the order of static objects.
-/
namespace Eni.Spec
open Exn

/-- The text of an exception; none for those that the standard library throws. -/
def excText : Exc → Option String
  | .invalidIteratorEmpty => some "invalid iterator: iterator points to nowhere"
  | .invalidDelegateAssigned => some "invalid delegation: value has been assigned"
  | .invalidStringMapKey => some "invalid access: key does not exist"
  | .invalidVectorIndex => some "invalid access: index out of bound"
  | .exceedVectorMaxSize => some "invalid reserve: exceed maximum size"
  | .noMemory => some "no memory"
  | .stdOutOfRange => none
  | .stdLengthError => none

def excSays (e : Exc) : Text :=
  match excText e with
  | some s => .lib s
  | none => .impl

/-- The standard classes under which it can be caught. -/
def excKinds : Exc → List Std
  | .invalidIteratorEmpty => [.logicError, .exception]
  | .invalidDelegateAssigned => [.logicError, .exception]
  | .invalidStringMapKey => [.outOfRange, .logicError, .exception]
  | .invalidVectorIndex => [.outOfRange, .logicError, .exception]
  | .exceedVectorMaxSize => [.lengthError, .logicError, .exception]
  | .noMemory => [.badAlloc, .exception]
  | .stdOutOfRange => [.outOfRange, .logicError, .exception]
  | .stdLengthError => [.lengthError, .logicError, .exception]

/-- The class of the library that it has. -/
def excClass : Exc → Option (Diag × Std)
  | .invalidIteratorEmpty => some (.invalidIteratorEmpty, .logicError)
  | .invalidDelegateAssigned => some (.invalidDelegateAssigned, .logicError)
  | .invalidStringMapKey => some (.invalidStringMapKey, .outOfRange)
  | .invalidVectorIndex => some (.invalidVectorIndex, .outOfRange)
  | .exceedVectorMaxSize => some (.invalidVectorSize, .lengthError)
  | .noMemory => some (.noMemory, .badAlloc)
  | .stdOutOfRange => none
  | .stdLengthError => none

/-- A class whose handlers get the exception. -/
def ofKind (e : Exc) : Cls → Prop
  | .std s => s ∈ excKinds e
  | .exc d s => excClass e = some (d, s)
  | .tag _ => False

def hears (e : Exc) : Handler → Prop
  | .ref c => ofKind e c
  | .val c => ofKind e c
  | .all => True

/-- A handler that names its class by reference, or none. -/
def byReference : Handler → Prop
  | .val _ => False
  | _ => True

/-- What a handler learns (`none`: it has no parameter). -/
def learns (e : Exc) : Handler → Option Text
  | .all => none
  | _ => some (excSays e)

def fateOf (i : Nat) : Option Text → Fate
  | some t => .told i t
  | none => .mute i

/-- The object that a use of the library needs. -/
def needs : Use → Option SObj
  | .message e =>
    match excClass e with
    | some (d, _) => some (.str d)
    | none => none
  | .missing => some .null

/-- What it shows. -/
def shows : Use → Seen
  | .message e => .text (excSays e)
  | .missing => .value (some 5)

/-- `x` comes before `y`. -/
def Before (l : List SObj) (x y : SObj) : Prop := ∃ a b c, l = a ++ x :: b ++ y :: c

/-- All objects of the library are initialised, and every object once. -/
def Complete (p : Prog) : Prop := p.order.Nodup ∧ (∀ d, SObj.str d ∈ p.order) ∧ SObj.null ∈ p.order

/-- Everything a static object of the program uses, while it is constructed or destroyed, was initialised before it. -/
def Ordered (p : Prog) : Prop :=
  ∀ n, SObj.user n ∈ p.order → ∀ u ∈ p.ctor n ++ p.dtor n, ∀ x, needs u = some x → Before p.order x (.user n)

def userUses (f : Nat → List Use) : SObj → List Use
  | .user n => f n
  | _ => []

/-- All uses in the order in which they happen. -/
def allUses (p : Prog) : List Use := p.order.flatMap (userUses p.ctor) ++ p.main ++ p.order.reverse.flatMap (userUses p.dtor)

/-- The arguments of an operation on vectors are values of `size_t`, and ranges are not longer than such a value. -/
def SizeArgs {α : Type} : VOp α → Prop
  | .resize n => n < 2 ^ 64
  | .resizeA n _ => n < 2 ^ 64
  | .reserve n => n < 2 ^ 64
  | .assignN n _ => n < 2 ^ 64
  | .assignRange xs => xs.length < 2 ^ 64
  | _ => True

end Eni.Spec
