import Verif.Model.Basic
import Verif.Model.JsonValue
/-!
# Exceptions as their handlers see them (include/eni/diagnostic/Exception.h, DiagList.inc, lib/diagnostic/Exception.cpp)

The other models only tell which exception is thrown (`Exc`). Here it is an object of a class, with bases that are public or private and a
text that comes from a static `std::string`; handlers select by class and may copy the object. The strings, and the null value of
lib/json/Value.cpp, are objects with a lifetime: they are made before `main`, in an order that is not specified between translation units, and
destroyed afterwards in the reverse order.
-/
namespace Eni

namespace Exn

/-- `enum DiagID` (Exception.h 16-21, DiagList.inc 11-18). -/
inductive Diag where
  | unknown
  | unimplemented
  | noMemory
  | invalidDelegateAssigned
  | invalidIteratorEmpty
  | invalidStringMapKey
  | invalidVectorIndex
  | invalidVectorSize
  deriving DecidableEq, Repr

/-- The initialisers of `ExceptionBase<ID>::ErrStr` (Exception.cpp 16-19, DiagList.inc 11-18). -/
def errStr : Diag → String
  | .unknown => "unknown"
  | .unimplemented => "not implemented"
  | .noMemory => "no memory"
  | .invalidDelegateAssigned => "invalid delegation: value has been assigned"
  | .invalidIteratorEmpty => "invalid iterator: iterator points to nowhere"
  | .invalidStringMapKey => "invalid access: key does not exist"
  | .invalidVectorIndex => "invalid access: index out of bound"
  | .invalidVectorSize => "invalid reserve: exceed maximum size"

/-- Classes of the standard library that occur as bases or in handlers; `runtimeError` stands for a class unrelated to those thrown. -/
inductive Std where
  | exception
  | badAlloc
  | logicError
  | lengthError
  | outOfRange
  | runtimeError
  deriving DecidableEq, Repr

/-- Classes: of the standard library, `internal::ExceptionBase<ID>` (Exception.h 25-35), `Exception<ID, BaseType>` (41-103). -/
inductive Cls where
  | std (s : Std)
  | tag (d : Diag)
  | exc (d : Diag) (s : Std)
  deriving DecidableEq, Repr

inductive Access where
  | pub
  | priv
  deriving DecidableEq, Repr

/-- Direct bases. `Exception` derives privately from `ExceptionBase<ID>` and publicly from `BaseType` (Exception.h 42, 62-63, 77-78, 92-93); the
hierarchy of the standard library is that of [std.exceptions] and [bad.alloc]. -/
def bases : Cls → List (Access × Cls)
  | .std .exception => []
  | .std .badAlloc => [(.pub, .std .exception)]
  | .std .logicError => [(.pub, .std .exception)]
  | .std .lengthError => [(.pub, .std .logicError)]
  | .std .outOfRange => [(.pub, .std .logicError)]
  | .std .runtimeError => [(.pub, .std .exception)]
  | .tag _ => []
  | .exc d s => [(.priv, .tag d), (.pub, .std s)]

/-- [except.handle] 3: a handler for `h` matches an object of class `h` or of a class with `h` as a public base, followed through at most `n`
levels. (No base occurs twice here, so none is ambiguous.) Language rule, not code of /repo. -/
def isA (h : Cls) : Nat → Cls → Bool
  | 0, c => h == c
  | n + 1, c => h == c || (bases c).any fun b => b.1 == .pub && isA h n b.2

/-- The hierarchy has four levels. -/
def accepts (h c : Cls) : Bool := isA h 4 c

/-- Lifetime of an object with static storage: its memory is zeroed, it is constructed, it is destroyed. -/
inductive Phase where
  | raw
  | alive
  | dead
  deriving DecidableEq, Repr

/-- Use of an object with static storage. Before its construction and after its destruction this is undefined ([basic.life]). -/
def access (p : Phase) : Res Unit :=
  match p with
  | .raw => .ub .uninit
  | .alive => .ok ()
  | .dead => .ub .useAfterFree

/-- A text: one of the strings above, or one chosen by the implementation of the standard library. -/
inductive Text where
  | lib (s : String)
  | impl
  deriving DecidableEq, Repr

/-- An exception object: its class and the text kept by `std::logic_error`, if that is a base of the class. -/
structure Obj where
  cls : Cls
  stored : Option Text
  deriving DecidableEq, Repr

/-- The classes that keep the text they are constructed with. -/
def keeps : Std → Bool
  | .logicError | .lengthError | .outOfRange => true
  | _ => false

/-- The constructors of `Exception` (Exception.h 48, 69, 84, 99). Those of the specialisations copy `ErrStr` into their base; that of the primary
template does not touch it and leaves `m_ErrNo` (55) indeterminate. -/
def construct (w : Diag → Phase) (d : Diag) (s : Std) : Res Obj :=
  if keeps s then do
    access (w d)
    .ok ⟨.exc d s, some (.lib (errStr d))⟩
  else .ok ⟨.exc d s, none⟩

/-- What is thrown where the other models write `Exc`: Vector.tcc 136, 146, 176, 185, 291, 304, 346; HashIterator.tcc 75-230; StringMap.h 61, 68;
Value.cpp 100, 109, 118. The last two come from `std::string`. -/
def raise (w : Diag → Phase) : Exc → Res Obj
  | .invalidIteratorEmpty => construct w .invalidIteratorEmpty .logicError
  | .invalidDelegateAssigned => construct w .invalidDelegateAssigned .logicError
  | .invalidStringMapKey => construct w .invalidStringMapKey .outOfRange
  | .invalidVectorIndex => construct w .invalidVectorIndex .outOfRange
  | .exceedVectorMaxSize => construct w .invalidVectorSize .lengthError
  | .noMemory => construct w .noMemory .badAlloc
  | .stdOutOfRange => .ok ⟨.std .outOfRange, some .impl⟩
  | .stdLengthError => .ok ⟨.std .lengthError, some .impl⟩

/-- `what()` of an object (Exception.h 50-52, 71-73, 86-88, 101-103): an `Exception` reads `ErrStr` when it is asked; `std::logic_error` and the classes
derived from it return the text they keep, the other standard classes one of the implementation. -/
def what (w : Diag → Phase) (o : Obj) : Res Text :=
  match o.cls with
  | .exc d _ => do
    access (w d)
    .ok (.lib (errStr d))
  | .std s =>
    if keeps s then
      match o.stored with
      | some t => .ok t
      | none => .ub .uninit
    else .ok .impl
  | .tag _ => .ok .impl

/-- Initialisation of a handler's parameter of class `c` by copying: only the part of class `c` is copied. The implicit copy constructor of the primary
template `Exception` reads the indeterminate `m_ErrNo` (Exception.h 55). -/
def slice (c : Cls) (o : Obj) : Res Obj :=
  match c with
  | .exc _ s => if keeps s then .ok o else .ub .uninit
  | .std s => .ok ⟨c, if keeps s then o.stored else none⟩
  | .tag _ => .ok ⟨c, none⟩

/-- A handler: `catch (const C&)`, `catch (C)`, `catch (...)`. -/
inductive Handler where
  | ref (c : Cls)
  | val (c : Cls)
  | all
  deriving DecidableEq, Repr

/-- What becomes of an exception: handler number `i` is entered and the parameter's `what()` returns the text (`catch (...)` has no parameter), or no
handler matches. -/
inductive Fate where
  | told (i : Nat) (t : Text)
  | mute (i : Nat)
  | escapes
  deriving DecidableEq, Repr

/-- The handlers of a `try` block are tried in order ([except.handle] 4); `i` is the number of the first. -/
def dispatch (w : Diag → Phase) (o : Obj) (i : Nat) : List Handler → Res Fate
  | [] => .ok .escapes
  | .all :: _ => .ok (.mute i)
  | .ref c :: hs =>
    if accepts c o.cls then do
      let t ← what w o
      .ok (.told i t)
    else dispatch w o (i + 1) hs
  | .val c :: hs =>
    if accepts c o.cls then do
      let p ← slice c o
      let t ← what w p
      .ok (.told i t)
    else dispatch w o (i + 1) hs

/-- The exception `e` is thrown in a `try` block with the handlers `hs`. -/
def guarded (w : Diag → Phase) (e : Exc) (hs : List Handler) : Res Fate := do
  let o ← raise w e
  dispatch w o 0 hs

/-! ### Before and after `main` -/

/-- Objects with static storage that are initialised at run time: the strings (Exception.cpp 16-19), the null value (Value.cpp 17), and those of the
program that uses the library. -/
inductive SObj where
  | str (d : Diag)
  | null
  | user (n : Nat)
  deriving DecidableEq, Repr

/-- What a program does with them: it provokes an exception, catches it by reference and reads the text (`e` is one the library throws); it looks up a
key in a json value that is no object and reads the result (Value.cpp 198-212). -/
inductive Use where
  | message (e : Exc)
  | missing
  deriving DecidableEq

inductive Seen where
  | text (t : Text)
  | value (z : Option Int)
  deriving DecidableEq, Repr

/-- One use. -/
def use (w : SObj → Phase) : Use → Res Seen
  | .message e => do
    let o ← raise (fun d => w (.str d)) e
    let t ← what (fun d => w (.str d)) o
    .ok (.text t)
  | .missing => do
    access (w .null)
    .ok (.value (match Value.nullValue with | .int z => some z | _ => none))

def uses (w : SObj → Phase) : List Use → Res (List Seen)
  | [] => .ok []
  | u :: us => do
    let x ← use w u
    let xs ← uses w us
    .ok (x :: xs)

/-- A program: the order in which its static objects are initialised, what the constructors and destructors of its own ones do with the library, and
what `main` does. -/
structure Prog where
  order : List SObj
  ctor : Nat → List Use
  dtor : Nat → List Use
  main : List Use

def set (w : SObj → Phase) (x : SObj) (p : Phase) : SObj → Phase := fun y => if y = x then p else w y

/-- The constructors, in order ([basic.start.init]). The library's own use nothing of the library that is initialised at run time. -/
def start (p : Prog) (w : SObj → Phase) : List SObj → Res ((SObj → Phase) × List Seen)
  | [] => .ok (w, [])
  | x :: xs => do
    let a ← match x with
      | .user n => uses w (p.ctor n)
      | _ => .ok []
    let (w, b) ← start p (set w x .alive) xs
    .ok (w, a ++ b)

/-- The destructors ([basic.start.term]); the list is the reverse of the order of construction. -/
def stop (p : Prog) (w : SObj → Phase) : List SObj → Res (List Seen)
  | [] => .ok []
  | x :: xs => do
    let a ← match x with
      | .user n => uses w (p.dtor n)
      | _ => .ok []
    let b ← stop p (set w x .dead) xs
    .ok (a ++ b)

/-- The whole program. -/
def exec (p : Prog) : Res (List Seen) := do
  let (w, a) ← start p (fun _ => .raw) p.order
  let b ← uses w p.main
  let c ← stop p w p.order.reverse
  .ok (a ++ b ++ c)

end Exn
end Eni
