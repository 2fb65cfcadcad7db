import Verif.Model.StringMap
/-!
# Storage of `json::Value` (lib/json/Value.cpp, Notation.cpp, include/eni/json/Value.h, Array.h, Object.h)

Model/JsonValue treats values as pure data. Here a value is what it is in memory: a type tag and a union whose pointer leads to a heap
cell. Every constructor, assignment and destructor acts on the heap; reading a released cell, a null or uninitialised pointer, or a cell
of another type is undefined behaviour.

Simplified: a `Vector<Value>` is the list of its elements (its buffer is Model/Vector), a `StringMap<Value>` is the list of its keys and
the list of its values in order of insertion (C11); allocation always succeeds and addresses are never reused.
-/
namespace Eni
namespace Owner

/-- `enum Type` (Type.h 12-19). -/
inductive Ty where
  | int | bool | str | obj | arr | undef
  deriving DecidableEq, Repr

/-- Contents of `union Holder` (Value.h 64-80): `null` after `reset()`, `raw` in memory that was never written. -/
inductive Bits where
  | null
  | raw
  | ptr (p : Nat)
  | bool (b : Bool)
  deriving DecidableEq, Repr

/-- A `json::Value`: `Notation::m_Type` and `m_Value`. -/
structure Val where
  ty : Ty
  bits : Bits
  deriving DecidableEq, Repr

/-- An object on the heap: `eni::s256`, `std::string`, `json::Array`, `json::Object`. -/
inductive Cell where
  | int (z : Int)
  | str (s : Bytes)
  | arr (vs : List Val)
  | obj (ks : List Bytes) (vs : List Val)
  deriving DecidableEq, Repr

/-- The heap. `cell p = none`: released or never allocated. Cell 0 is the stack frame with the variables of the program. -/
structure Heap where
  next : Nat
  cell : Nat → Option Cell

/-- `new` -/
def Heap.alloc (h : Heap) (c : Cell) : Heap × Nat :=
  (⟨h.next + 1, fun q => if q = h.next then some c else h.cell q⟩, h.next)

/-- `*m_Value.x_p` -/
def Heap.deref (h : Heap) : Bits → Res (Nat × Cell)
  | .null => .ub .nullDeref
  | .raw => .ub .uninit
  | .bool _ => .ub .badUnion
  | .ptr p =>
    match h.cell p with
    | none => .ub .useAfterFree
    | some c => .ok (p, c)

/-- `delete` -/
def Heap.free (h : Heap) (p : Nat) : Res Heap :=
  match h.cell p with
  | none => .ub .doubleFree
  | some _ => .ok { h with cell := fun q => if q = p then none else h.cell q }

/-- Storing into an existing object. -/
def Heap.put (h : Heap) (p : Nat) (c : Cell) : Heap := { h with cell := fun q => if q = p then some c else h.cell q }

/-- Element-wise copy (`std::copy` in the copy constructor of `Vector`, bits/Vector.tcc 33-38; the loop of the copy constructor of
`HashTable`, bits/HashTable.tcc 24-33), `cp` copies one value. -/
def copyList (cp : Heap → Val → Res (Heap × Val)) (h : Heap) : List Val → Res (Heap × List Val)
  | [] => .ok (h, [])
  | v :: vs => do
    let (h, v) ← cp h v
    let (h, vs) ← copyList cp h vs
    .ok (h, v :: vs)

/-- `Value(const Value&)` (Value.cpp 19-40) and, for the union, the same `switch` of `operator=` (172-191). The fuel bounds the
recursion depth. -/
def copy : Nat → Heap → Val → Res (Heap × Val)
  | 0, _, _ => .diverge
  | fuel + 1, h, v =>
    match v.ty with
    | .undef => .ok (h, ⟨.undef, .null⟩)
    | .bool =>
      match v.bits with
      | .bool b => .ok (h, ⟨.bool, .bool b⟩)
      | _ => .ub .badUnion
    | .int => do
      match ← h.deref v.bits with
      | (_, .int z) => let (h, p) := h.alloc (.int z); .ok (h, ⟨.int, .ptr p⟩)
      | _ => .ub .badUnion
    | .str => do
      match ← h.deref v.bits with
      | (_, .str s) => let (h, p) := h.alloc (.str s); .ok (h, ⟨.str, .ptr p⟩)
      | _ => .ub .badUnion
    | .arr => do
      match ← h.deref v.bits with
      | (_, .arr vs) =>
        let (h, vs) ← copyList (copy fuel) h vs
        let (h, p) := h.alloc (.arr vs)
        .ok (h, ⟨.arr, .ptr p⟩)
      | _ => .ub .badUnion
    | .obj => do
      match ← h.deref v.bits with
      | (_, .obj ks vs) =>
        let (h, vs) ← copyList (copy fuel) h vs
        let (h, p) := h.alloc (.obj ks vs)
        .ok (h, ⟨.obj, .ptr p⟩)
      | _ => .ub .badUnion

/-- Destruction of the member values of an object (bits/HashTable.tcc 93-103). -/
def destroyList (ds : Heap → Val → Res Heap) (h : Heap) : List Val → Res Heap
  | [] => .ok h
  | v :: vs => do
    let h ← ds h v
    destroyList ds h vs

/-- `~Value()` (Value.cpp 77-94). Integers are not released; `~Vector` (bits/Vector.tcc 47-51) releases its buffer without destroying the
elements; `~HashTable` destroys every entry. -/
def destroy : Nat → Heap → Val → Res Heap
  | 0, _, _ => .diverge
  | fuel + 1, h, v =>
    match v.ty with
    | .str => do
      match ← h.deref v.bits with
      | (p, .str _) => h.free p
      | _ => .ub .badUnion
    | .obj => do
      match ← h.deref v.bits with
      | (p, .obj _ vs) =>
        let h ← destroyList (destroy fuel) h vs
        h.free p
      | _ => .ub .badUnion
    | .arr => do
      match ← h.deref v.bits with
      | (p, .arr _) => h.free p
      | _ => .ub .badUnion
    | _ => .ok h

/-- A step from a value to a part of it: `.asArray()[i]`, `.asObject().at(k)`. -/
inductive Step where
  | elem (i : Nat)
  | mem (k : Bytes)
  deriving DecidableEq, Repr

/-- A value named in a program: variable `i` is `[elem i]`. -/
abbrev Path := List Step

/-- Where a `Value` is stored: number within the cell `addr`. -/
structure Loc where
  addr : Nat
  idx : Nat
  deriving DecidableEq, Repr

/-- The `Value`s inside a cell. -/
def Cell.kids : Cell → List Val
  | .arr vs => vs
  | .obj _ vs => vs
  | _ => []

/-- The same cell with other `Value`s. -/
def Cell.withKids : Cell → List Val → Cell
  | .arr _, vs => .arr vs
  | .obj ks _, vs => .obj ks vs
  | c, _ => c

/-- `v.asArray()[i]` (Value.h 48, bits/Vector.tcc 160-164) and `v.asObject().at(k)` (Value.h 47, StringMap.h 58-63) as places. The
accessors do not check the type of the value. -/
def stepInto (h : Heap) (v : Val) : Step → Res Loc
  | .elem i =>
    if v.ty = .arr then do
      match ← h.deref v.bits with
      | (p, .arr vs) => if i < vs.length then .ok ⟨p, i⟩ else .ub .outOfBounds
      | _ => .ub .badUnion
    else .ub .badUnion
  | .mem k =>
    if v.ty = .obj then do
      match ← h.deref v.bits with
      | (p, .obj ks _) => if k ∈ ks then .ok ⟨p, ks.idxOf k⟩ else .throw .invalidStringMapKey
      | _ => .ub .badUnion
    else .ub .badUnion

/-- Reading the `Value` stored at a place. -/
def readAt (h : Heap) (l : Loc) : Res Val :=
  match h.cell l.addr with
  | none => .ub .useAfterFree
  | some c =>
    match c.kids[l.idx]? with
    | none => .ub .outOfBounds
    | some v => .ok v

/-- Overwriting the bits of the `Value` stored at a place. -/
def writeAt (h : Heap) (l : Loc) (v : Val) : Res Heap :=
  match h.cell l.addr with
  | none => .ub .useAfterFree
  | some c => if l.idx < c.kids.length then .ok (h.put l.addr (c.withKids (c.kids.set l.idx v))) else .ub .outOfBounds

/-- The place named by a path, starting from value `v`. -/
def locate (h : Heap) (v : Val) : Path → Res Loc
  | [] => .ub .nullDeref
  | [s] => stepInto h v s
  | s :: ps => do
    let l ← stepInto h v s
    let w ← readAt h l
    locate h w ps

/-- The stack frame, seen as an array of variables. -/
def frame : Val := ⟨.arr, .ptr 0⟩

/-- The program starts without variables. -/
def Heap.init : Heap := ⟨1, fun q => if q = 0 then some (.arr []) else none⟩

/-- Recursion depth that is always enough for well-formed values (part of C34). -/
def Heap.fuel (h : Heap) : Nat := h.next + 1

/-- A new variable. -/
def declare (h : Heap) (v : Val) : Res Heap :=
  match h.cell 0 with
  | some (.arr vs) => .ok (h.put 0 (.arr (vs ++ [v])))
  | _ => .ub .useAfterFree

/-- `*d = *s` for places (Value.cpp 169-192): first the type is copied (`Notation::operator=`, Notation.cpp 29-33), then the contents of
the source, then the union is set. `s` is the source as read before: the first step can only change it if both places are the same, and
then by nothing. The former contents are not released. -/
def assignVal (h : Heap) (d : Loc) (s : Val) : Res Heap := do
  let old ← readAt h d
  let h ← writeAt h d ⟨s.ty, old.bits⟩
  if s.ty = .undef then .ok h
  else do
    let (h, v) ← copy h.fuel h s
    writeAt h d v

/-- Operations of a program on values. -/
inductive Op where
  | undef                                    -- Value v;
  | bool (b : Bool)                          -- Value v(b);
  | int (z : Int)                            -- Value v(z);
  | str (s : Bytes)                          -- Value v(s);
  | array                                    -- Value v(Array());
  | object                                   -- Value v(Object());
  | copy (src : Path)                        -- Value v(src);
  | move (src : Path)                        -- Value v(std::move(src));
  | assign (dst src : Path)                  -- dst = src;
  | destroy (i : Nat)                        -- the lifetime of variable i ends
  | pushBack (dst src : Path)                -- dst.asArray().push_back(src);
  | popBack (dst : Path)                     -- Value v(dst.asArray().pop_back());
  | setMember (dst : Path) (k : Bytes) (src : Path)  -- dst.asObject()[k] = src;
  | eraseMember (dst : Path) (k : Bytes)     -- dst.asObject().erase(k);
  | delegateInt (dst : Path) (z : Int)       -- dst.delegate(*new s256(z));
  | delegateArray (dst : Path)               -- dst.delegate(*new Array);
  | delegateObject (dst : Path)              -- dst.delegate(*new Object);
  | dropInt (i : Nat)                        -- the s256 that variable i was delegated, and then variable i, go out of scope
  deriving DecidableEq, Repr

/-- What the program notices: `threw` is LogicError<InvalidDelegateAssigned>, caught by the program. -/
inductive Rep where
  | done
  | threw
  | erased (b : Bool)
  deriving DecidableEq, Repr

/-- A `delegate` (Value.cpp 97-122) of a newly allocated object, which becomes the property of the value. -/
def delegate (h : Heap) (dst : Path) (ty : Ty) (c : Cell) : Res (Heap × Rep) := do
  let (h, p) := h.alloc c
  let l ← locate h frame dst
  let v ← readAt h l
  if v.ty = .undef then do
    let h ← writeAt h l ⟨ty, .ptr p⟩
    .ok (h, .done)
  else .ok (h, .threw)

/-- One operation. -/
def step (h : Heap) : Op → Res (Heap × Rep)
  | .undef => do
    let h ← declare h ⟨.undef, .null⟩
    .ok (h, .done)
  | .bool b => do          -- Value.h 28
    let h ← declare h ⟨.bool, .bool b⟩
    .ok (h, .done)
  | .int z => do           -- Value.cpp 57-65
    let (h, p) := h.alloc (.int z)
    let h ← declare h ⟨.int, .ptr p⟩
    .ok (h, .done)
  | .str s => do           -- Value.cpp 47-55
    let (h, p) := h.alloc (.str s)
    let h ← declare h ⟨.str, .ptr p⟩
    .ok (h, .done)
  | .array => do           -- Value.cpp 72-75
    let (h, p) := h.alloc (.arr [])
    let h ← declare h ⟨.arr, .ptr p⟩
    .ok (h, .done)
  | .object => do          -- Value.cpp 67-70
    let (h, p) := h.alloc (.obj [] [])
    let h ← declare h ⟨.obj, .ptr p⟩
    .ok (h, .done)
  | .copy src => do        -- Value.cpp 19-40
    let l ← locate h frame src
    let v ← readAt h l
    let (h, w) ← copy h.fuel h v
    let h ← declare h w
    .ok (h, .done)
  | .move src => do        -- Value.cpp 42-45, Notation.cpp 23-27: the source becomes UNDEF and keeps its union
    let l ← locate h frame src
    let v ← readAt h l
    let h ← writeAt h l ⟨.undef, v.bits⟩
    let h ← declare h v
    .ok (h, .done)
  | .assign dst src => do
    let d ← locate h frame dst
    let l ← locate h frame src
    let s ← readAt h l
    let h ← assignVal h d s
    .ok (h, .done)
  | .destroy i => do
    let l ← locate h frame [.elem i]
    let v ← readAt h l
    let h ← Owner.destroy h.fuel h v
    let h ← writeAt h l ⟨.undef, .null⟩
    .ok (h, .done)
  | .pushBack dst src => do  -- bits/Vector.tcc 228-233: the size is increased before the assignment to the new slot
    let l ← locate h frame dst
    let v ← readAt h l
    let sl ← locate h frame src
    let s ← readAt h sl
    if v.ty = .arr then
      match ← h.deref v.bits with
      | (p, .arr vs) =>
        -- `realloc` invalidates a reference to an element of the same array (C19)
        if sl.addr = p then .ub .useAfterFree
        else do
          let h ← assignVal (h.put p (.arr (vs ++ [⟨.undef, .raw⟩]))) ⟨p, vs.length⟩ s
          .ok (h, .done)
      | _ => .ub .badUnion
    else .ub .badUnion
  | .popBack dst => do     -- bits/Vector.tcc 235-239: returns a copy; the element itself is not destroyed
    let l ← locate h frame dst
    let v ← readAt h l
    if v.ty = .arr then
      match ← h.deref v.bits with
      | (p, .arr vs) =>
        match vs.getLast? with
        | none => .ub .outOfBounds
        | some e => do
          let (h, w) ← copy h.fuel (h.put p (.arr vs.dropLast)) e
          let h ← declare h w
          .ok (h, .done)
      | _ => .ub .badUnion
    else .ub .badUnion
  | .setMember dst k src => do  -- StringMap.h 72-76: a new entry holds an undefined value before the assignment
    let l ← locate h frame dst
    let v ← readAt h l
    let sl ← locate h frame src
    let s ← readAt h sl
    if v.ty = .obj then
      match ← h.deref v.bits with
      | (p, .obj ks vs) =>
        if k ∈ ks then do
          let h ← assignVal h ⟨p, ks.idxOf k⟩ s
          .ok (h, .done)
        else do
          let h ← assignVal (h.put p (.obj (ks ++ [k]) (vs ++ [⟨.undef, .null⟩]))) ⟨p, vs.length⟩ s
          .ok (h, .done)
      | _ => .ub .badUnion
    else .ub .badUnion
  | .eraseMember dst k => do  -- bits/HashTable.tcc 147-162
    let l ← locate h frame dst
    let v ← readAt h l
    if v.ty = .obj then
      match ← h.deref v.bits with
      | (p, .obj ks vs) =>
        if k ∈ ks then do
          let e ← readAt h ⟨p, ks.idxOf k⟩
          let h ← Owner.destroy h.fuel h e
          .ok (h.put p (.obj (ks.eraseIdx (ks.idxOf k)) (vs.eraseIdx (ks.idxOf k))), .erased true)
        else .ok (h, .erased false)
      | _ => .ub .badUnion
    else .ub .badUnion
  | .delegateInt dst z => delegate h dst .int (.int z)
  | .delegateArray dst => delegate h dst .arr (.arr [])
  | .delegateObject dst => delegate h dst .obj (.obj [] [])
  | .dropInt i => do       -- the end of `on_number` (Callbacks.h 42): `~Value` runs when the integer it points to is gone
    let l ← locate h frame [.elem i]
    let v ← readAt h l
    if v.ty = .int then
      match ← h.deref v.bits with
      | (p, .int _) => do
        let h ← h.free p
        let h ← Owner.destroy h.fuel h v
        let h ← writeAt h l ⟨.undef, .null⟩
        .ok (h, .done)
      | _ => .ub .badUnion
    else .ub .badUnion

/-- A program. -/
def run (h : Heap) : List Op → Res (Heap × List Rep)
  | [] => .ok (h, [])
  | op :: ops => do
    let (h, r) ← step h op
    let (h, rs) ← run h ops
    .ok (h, r :: rs)

end Owner
end Eni
