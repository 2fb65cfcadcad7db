/-!
# What a user sees of a variable, and where pointers were stored

Without reference to bytes: the kind of every variable, the truth of booleans, whether an address was ever stored in the variable, and
the last truth value that was.
-/
namespace Eni.Spec.Shown

/-- Contents of a variable. -/
inductive Content
  | nothing
  | truth (b : Bool)
  | heap (code : Nat)
  deriving DecidableEq

/-- A variable: its contents, whether its memory ever held an address, and the last boolean stored there (`false` if none was). -/
structure Var where
  content : Content
  used : Bool
  last : Bool

inductive Act
  | undef
  | bool (b : Bool)
  | new (code : Nat)
  | copy (i : Nat)
  | move (i : Nat)
  | assign (i j : Nat)
  | delegate (i : Nat) (code : Nat)

def Content.isHeap : Content → Bool
  | .heap _ => true
  | _ => false

/-- The boolean that remains after the contents are stored where `b` was. -/
def Content.left (b : Bool) : Content → Bool
  | .truth c => c
  | _ => b

def act (vs : List Var) : Act → Option (List Var)
  | .undef => some (vs ++ [⟨.nothing, false, false⟩])
  | .bool b => some (vs ++ [⟨.truth b, false, b⟩])
  | .new c => some (vs ++ [⟨.heap c, true, false⟩])
  | .copy i => vs[i]?.map fun v => vs ++ [⟨v.content, v.content.isHeap, v.content.left false⟩]
  | .move i => vs[i]?.map fun v => vs.set i ⟨.nothing, v.used, v.last⟩ ++ [v]
  | .assign i j =>
    match vs[i]?, vs[j]? with
    | some v, some s => some (vs.set i ⟨s.content, v.used || s.content.isHeap, s.content.left v.last⟩)
    | _, _ => none
  | .delegate i c => vs[i]?.map fun _ => vs.set i ⟨.heap c, true, false⟩

def acts : List Var → List Act → Option (List Var)
  | vs, [] => some vs
  | vs, a :: p =>
    match act vs a with
    | some vs => acts vs p
    | none => none

/-- The text for contents where no address was ever stored: the number of the kind and the last boolean. -/
def plainText (c : Content) (last : Bool) : Option (List Char) :=
  match c with
  | .truth b => some (if b then "(1,0x1)\n".toList else "(1,0)\n".toList)
  | .nothing => some (if last then "(5,0x1)\n".toList else "(5,0)\n".toList)
  | .heap _ => none

end Eni.Spec.Shown
