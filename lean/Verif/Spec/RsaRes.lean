import Verif.Model.CryptoRes
/-!
# Programs that take care of their keys

The user's view of a program: which variables hold a key. It depends on which PEM texts are keys, not on the library's bookkeeping.
-/
namespace Eni.Spec
open Crypto (Cmd Key)

/-- The variables that hold a key after a statement. -/
def holds (pub prv : Bytes → Option Key) (h : Nat → Bool) : Cmd → Nat → Bool
  | .create priv x bio t => fun y => if y = x then bio && ((if priv then prv else pub) (cstr t)).isSome else h y
  | .destroy x => fun y => if y = x then false else h y
  | .crypt _ _ _ => h
  | .copy y x => fun z => if z = y then h x else h z

/-- ... after a program. -/
def holdsAll (pub prv : Bytes → Option Key) : (Nat → Bool) → List Cmd → Nat → Bool
  | h, [] => h
  | h, c :: cs => holdsAll pub prv (holds pub prv h c) cs

/-- The program destroys a key before it assigns another one to its variable, uses only variables that hold a key, and does not copy
pointers. Destroying is allowed at any time. -/
def Careful (pub prv : Bytes → Option Key) : (Nat → Bool) → List Cmd → Prop
  | _, [] => True
  | h, c :: cs =>
    (match c with
     | .create _ x _ _ => h x = false
     | .destroy _ => True
     | .crypt _ x _ => h x = true
     | .copy _ _ => False) ∧ Careful pub prv (holds pub prv h c) cs

/-- Statements that obtain a BIO, and statements that obtain a buffer. -/
def opensBio : Cmd → Bool
  | .create _ _ bio _ => bio
  | _ => false

def encryptsOrDecrypts : Cmd → Bool
  | .crypt _ _ _ => true
  | _ => false

end Eni.Spec
