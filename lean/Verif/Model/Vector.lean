import Verif.Model.Basic
/-!
# `eni::Vector` (include/eni/adt/Vector.h, include/eni/adt/bits/Vector.tcc)

Element types are trivially copyable (the code moves elements with `realloc` and assigns to memory in which no object was constructed;
for other types this is undefined behaviour from the first `push_back` on). `Vec.Cfg` fixes `sizeof(ElementType)`, the value of a
value-initialised element and the value denoted by all-zero bytes.

A call that may throw returns `Ret`: the vector after the call together with a value or an exception. Undefined behaviour and
non-termination are outcomes of `Res`.

The allocator is an oracle: every operation gets a flag `grant` telling whether memory is granted should the operation ask for it.
-/
namespace Eni

namespace Vec

/-- Parameters of the element type. -/
structure Cfg (α : Type) where
  sz : Nat          -- sizeof(ElementType)
  dflt : α          -- ElementType()
  zero : α          -- all-zero bytes
  sz_pos : 0 < sz

end Vec

/-- What `m_Data` points to: nothing, a block of cells (`none`: never written), or a block that `realloc(p, 0)` has released. -/
inductive VData (α : Type) where
  | null
  | buf (cells : List (Option α))
  | dangling
  deriving DecidableEq, Repr

/-- Data members (Vector.h 108-110); `m_DataSize` and `m_AllocSize` are 64-bit unsigned. -/
structure Vec (α : Type) where
  data : VData α
  size : Nat
  alloc : Nat
  deriving DecidableEq, Repr

/-- A `const_reference` argument: a value outside of the vector, or a reference to element `j` of the vector itself. -/
inductive VArg (α : Type) where
  | val (a : α)
  | own (j : Nat)
  deriving DecidableEq, Repr

/-- A value or an exception. -/
inductive Ret (β : Type) where
  | val (b : β)
  | exc (e : Exc)
  deriving DecidableEq, Repr

namespace Vec
variable {α β : Type}

def ret (v : Vec α) (b : β) : Res (Vec α × Ret β) := .ok (v, .val b)
def throw (v : Vec α) (e : Exc) : Res (Vec α × Ret β) := .ok (v, .exc e)

/-- Sequencing of calls on a vector: `f` runs only if no exception is propagating. -/
def andThen {γ : Type} (x : Res (Vec α × Ret β)) (f : Vec α → β → Res (Vec α × Ret γ)) : Res (Vec α × Ret γ) :=
  match x with
  | .ok (v, .val b) => f v b
  | .ok (v, .exc e) => .ok (v, .exc e)
  | .throw e => .throw e
  | .ub u => .ub u
  | .diverge => .diverge
  | .exit c => .exit c

/-- 2^64 - 1 (`max_size()`, bits/Vector.tcc 97-101). -/
def maxSize : Nat := 18446744073709551615

/-- Access to cell `i` for reading. -/
def readCell (d : VData α) (i : Nat) : Res α :=
  match d with
  | .null => .ub .nullDeref
  | .dangling => .ub .useAfterFree
  | .buf cells =>
    match cells[i]? with
    | none => .ub .outOfBounds
    | some none => .ub .uninit
    | some (some a) => .ok a

/-- `cells[i ..]` overwritten by `xs`. -/
def overwrite (cells : List (Option α)) (i : Nat) (xs : List (Option α)) : List (Option α) :=
  cells.take i ++ xs ++ cells.drop (i + xs.length)

/-- Stores `xs` from cell `i` on (`std::copy`, `std::fill_n`, a single assignment); nothing happens for the empty range. -/
def store (d : VData α) (i : Nat) (xs : List (Option α)) : Res (VData α) :=
  if xs = [] then .ok d
  else match d with
  | .null => .ub .nullDeref
  | .dangling => .ub .useAfterFree
  | .buf cells =>
    if i + xs.length ≤ cells.length then .ok (.buf (overwrite cells i xs)) else .ub .outOfBounds

/-- Reads the cells `i .. j-1` as they are (`std::copy` of trivially copyable elements). -/
def readRange (d : VData α) (i j : Nat) : Res (List (Option α)) :=
  if j ≤ i then (if i = j then .ok [] else .ub .outOfBounds)
  else match d with
  | .null => .ub .nullDeref
  | .dangling => .ub .useAfterFree
  | .buf cells => if j ≤ cells.length then .ok ((cells.take j).drop i) else .ub .outOfBounds

/-- `Vector()` (bits/Vector.tcc 8-11). -/
def empty : Vec α := ⟨.null, 0, 0⟩

/-- `std::calloc(n, sizeof(ElementType))`; the callers do not test for null. -/
def calloc (cfg : Cfg α) (grant : Bool) (n : Nat) : VData α :=
  if grant then .buf (List.replicate n (some cfg.zero)) else .null

/-- `Vector(size_type)` (bits/Vector.tcc 13-17). -/
def mkN (cfg : Cfg α) (grant : Bool) (n : Nat) : Vec α := ⟨calloc cfg grant n, n, n⟩

/-- `Vector(size_type, const_reference)` (bits/Vector.tcc 19-24). -/
def mkFill (cfg : Cfg α) (grant : Bool) (n : Nat) (a : α) : Res (Vec α) := do
  let d ← store (calloc cfg grant n) 0 (List.replicate n (some a))
  .ok ⟨d, n, n⟩

/-- `Vector(const std_vector&)`, `Vector(initializer_list)` (bits/Vector.tcc 26-31, 40-45). -/
def ofList (cfg : Cfg α) (grant : Bool) (xs : List α) : Res (Vec α) := do
  let d ← store (calloc cfg grant xs.length) 0 (xs.map some)
  .ok ⟨d, xs.length, xs.length⟩

/-- `Vector(const Vector&)` (bits/Vector.tcc 33-38). -/
def copy (cfg : Cfg α) (grant : Bool) (v : Vec α) : Res (Vec α) := do
  let xs ← readRange v.data 0 v.size
  let d ← store (calloc cfg grant v.size) 0 xs
  .ok ⟨d, v.size, v.size⟩

/-- The loop of `reserve` (bits/Vector.tcc 139-143) with 64-bit arithmetic. -/
def growLoop (pSize : Nat) : Nat → Nat → Res Nat
  | 0, _ => .diverge
  | fuel + 1, target =>
    if target < pSize ∧ target < maxSize then growLoop pSize fuel (if target > 0 then w64 (target * 2) else 1)
    else .ok target

/-- Iterations after which the loop is known to be periodic (see `growLoop_diverge_all`). -/
def growFuel : Nat := 192

/-- `std::realloc(m_Data, bytes)`: the cells that fit are kept, the rest is indeterminate. `realloc(p, 0)` with `p` not null releases
`p` and returns null (glibc). `none`: null was returned; the second component is the state of the old block. -/
def realloc (cfg : Cfg α) (grant : Bool) (d : VData α) (bytes : Nat) : Res (Option (VData α) × VData α) :=
  let n := bytes / cfg.sz
  match d with
  | .dangling => .ub .useAfterFree
  | .null => if grant then .ok (some (.buf (List.replicate n none)), d) else .ok (none, d)
  | .buf cells =>
    if bytes = 0 then .ok (none, .dangling)
    else if grant then .ok (some (.buf (cells.take n ++ List.replicate (n - cells.length) none)), d)
    else .ok (none, d)

/-- `reserve` (bits/Vector.tcc 130-152). The comparison with `max_size()` in line 135 can never hold. The result tells whether the
block was reallocated (references to elements are then invalid). -/
def reserve (cfg : Cfg α) (grant : Bool) (v : Vec α) (pSize : Nat) : Res (Vec α × Ret Bool) :=
  if pSize ≤ v.alloc then ret v false
  else if pSize > maxSize then throw v .exceedVectorMaxSize
  else do
    let target ← growLoop pSize growFuel v.alloc
    let target := if target > maxSize then maxSize else target
    match ← realloc cfg grant v.data (w64 (cfg.sz * target)) with
    | (none, d) => throw { v with data := d } .noMemory
    | (some d, _) => ret { v with data := d, alloc := pSize } true

/-- Reads a `const_reference` argument; `moved` tells whether the block was reallocated since the reference was made. -/
def readArg (v : Vec α) (moved : Bool) : VArg α → Res α
  | .val a => .ok a
  | .own j => if moved then .ub .useAfterFree else readCell v.data j

/-- `resize(size_t, const ElementType&)` (bits/Vector.tcc 109-116). -/
def resizeA (cfg : Cfg α) (grant : Bool) (v : Vec α) (pSize : Nat) (arg : VArg α) : Res (Vec α × Ret Bool) :=
  andThen (reserve cfg grant v pSize) fun v moved =>
    if pSize > v.size then do
      let a ← readArg v moved arg
      let d ← store v.data v.size (List.replicate (pSize - v.size) (some a))
      ret { v with data := d, size := pSize } moved
    else ret { v with size := pSize } moved

/-- `resize(size_type)` (bits/Vector.tcc 103-107). -/
def resize (cfg : Cfg α) (grant : Bool) (v : Vec α) (pSize : Nat) : Res (Vec α × Ret Bool) := resizeA cfg grant v pSize (.val cfg.dflt)

/-- `capacity` (bits/Vector.tcc 124-128). -/
def capacity (v : Vec α) : Nat := v.alloc

/-- `operator[]` (bits/Vector.tcc 160-170); the value behind the reference. -/
def index (v : Vec α) (i : Nat) : Res α := readCell v.data i

/-- `at` (bits/Vector.tcc 172-188). -/
def at_ (v : Vec α) (i : Nat) : Res (Vec α × Ret α) :=
  if i ≥ v.size then throw v .invalidVectorIndex
  else do
    let a ← readCell v.data i
    ret v a

/-- `front` (bits/Vector.tcc 190-194). -/
def front (v : Vec α) : Res α := readCell v.data 0

/-- `back` (bits/Vector.tcc 196-200). -/
def back (v : Vec α) : Res α := readCell v.data (sub64 v.size 1)

/-- `assign(size_type, const_reference)` (bits/Vector.tcc 208-213). -/
def assignN (cfg : Cfg α) (grant : Bool) (v : Vec α) (pSize : Nat) (arg : VArg α) : Res (Vec α × Ret Unit) :=
  andThen (resize cfg grant v pSize) fun v moved =>
    if pSize = 0 then ret v ()
    else do
      let a ← readArg v moved arg
      let d ← store v.data 0 (List.replicate pSize (some a))
      ret { v with data := d } ()

/-- `assign(const_iterator, const_iterator)` and `assign(initializer_list)` (bits/Vector.tcc 215-226) for a range `xs` outside of the
vector; also `operator=` (53-65) from another vector or a list. -/
def assignRange (cfg : Cfg α) (grant : Bool) (v : Vec α) (xs : List (Option α)) : Res (Vec α × Ret Unit) :=
  andThen (resize cfg grant v xs.length) fun v _ => do
    let d ← store v.data 0 xs
    ret { v with data := d } ()

/-- `operator=(const Vector&)` (bits/Vector.tcc 53-58) from another vector. -/
def assignVec (cfg : Cfg α) (grant : Bool) (v other : Vec α) : Res (Vec α × Ret Unit) := do
  let xs ← readRange other.data 0 other.size
  assignRange cfg grant v xs

/-- `operator=(const Vector&)` with the vector itself as argument: the range is read after `resize`, which does nothing. -/
def assignSelf (cfg : Cfg α) (grant : Bool) (v : Vec α) : Res (Vec α × Ret Unit) :=
  andThen (resize cfg grant v v.size) fun v' moved =>
    if moved then .ub .useAfterFree
    else do
      let xs ← readRange v'.data 0 v.size
      let d ← store v'.data 0 xs
      ret { v' with data := d } ()

/-- `push_back` (bits/Vector.tcc 228-233); `emplace_back` (241-247) does the same with a value (and leaks the temporary). -/
def pushBack (cfg : Cfg α) (grant : Bool) (v : Vec α) (arg : VArg α) : Res (Vec α × Ret Unit) :=
  andThen (reserve cfg grant v (w64 (v.size + 1))) fun v moved => do
    let a ← readArg v moved arg
    let d ← store v.data v.size [some a]
    ret { v with data := d, size := w64 (v.size + 1) } ()

/-- `pop_back` (bits/Vector.tcc 235-239). -/
def popBack (v : Vec α) : Res (Vec α × Ret α) := do
  let n := sub64 v.size 1
  let a ← readCell v.data n
  ret { v with size := n } a

/-- `insert(size_type, size_type, const_reference)` (bits/Vector.tcc 287-298). `fill_n` reads the reference after the elements have been
shifted. -/
def insertN (cfg : Cfg α) (grant : Bool) (v : Vec α) (i n : Nat) (arg : VArg α) : Res (Vec α × Ret Unit) :=
  if i > v.size then throw v .invalidVectorIndex
  else andThen (resize cfg grant v (w64 (v.size + n))) fun v moved =>
    if n > v.size then .ub .outOfBounds
    else do
      let tail ← readRange v.data i (v.size - n)
      let d ← store v.data (i + n) tail
      let v := { v with data := d }
      if n = 0 then ret v ()
      else do
        let a ← readArg v moved arg
        let d ← store v.data i (List.replicate n (some a))
        ret { v with data := d } ()

/-- `insert(size_type, const_iterator, const_iterator)` and `insert(size_type, initializer_list)` (bits/Vector.tcc 300-318) for a range
outside of the vector. -/
def insertRange (cfg : Cfg α) (grant : Bool) (v : Vec α) (i : Nat) (xs : List (Option α)) : Res (Vec α × Ret Unit) :=
  if i > v.size then throw v .invalidVectorIndex
  else andThen (resize cfg grant v (w64 (v.size + xs.length))) fun v _ =>
    if xs.length > v.size then .ub .outOfBounds
    else do
      let tail ← readRange v.data i (v.size - xs.length)
      let d ← store v.data (i + xs.length) tail
      let d ← store d i xs
      ret { v with data := d } ()

/-- `erase(size_type, size_type)` (bits/Vector.tcc 342-350). The final `resize` never allocates. -/
def erase (cfg : Cfg α) (v : Vec α) (first last : Nat) : Res (Vec α × Ret Unit) :=
  if first ≥ last ∨ last ≥ v.size then throw v .invalidVectorIndex
  else do
    let tail ← readRange v.data last v.size
    let d ← store v.data first tail
    andThen (resize cfg true { v with data := d } (v.size - (last - first))) fun v _ => ret v ()

/-- `erase(size_type)` (bits/Vector.tcc 336-340). -/
def erase1 (cfg : Cfg α) (v : Vec α) (i : Nat) : Res (Vec α × Ret Unit) := erase cfg v i (w64 (i + 1))

/-- `clear` (bits/Vector.tcc 360-369). -/
def clear (v : Vec α) : Res (Vec α × Ret Unit) :=
  match v.data with
  | .dangling => .ub .doubleFree
  | _ => ret ⟨.null, 0, 0⟩ ()

/-- `swap` (bits/Vector.tcc 352-358). -/
def swap (v w : Vec α) : Vec α × Vec α := (w, v)

/-- `json::Array::operator[](int)` (json/Array.h 29): the `int` is converted to `size_type`, negative values become huge. -/
def atInt (v : Vec α) (i : Int) : Res (Vec α × Ret α) := at_ v (i % 18446744073709551616).toNat

end Vec

/-- Operations of a history over two vectors `v` and `w`; all but the last three work on `v`. -/
inductive VOp (α : Type) where
  | pushBack (a : α)
  | popBack
  | insertN (i n : Nat) (a : α)
  | insertRange (i : Nat) (xs : List α)
  | erase (first last : Nat)
  | erase1 (i : Nat)
  | resize (n : Nat)
  | resizeA (n : Nat) (a : α)
  | reserve (n : Nat)
  | assignN (n : Nat) (a : α)
  | assignRange (xs : List α)
  | assignSelf
  | clear
  | at_ (i : Nat)
  | index (i : Nat)
  | size
  | swap          -- v.swap(w)
  | assignVec     -- v = w
  | copy          -- w.~Vector(); new (&w) Vector(v); memory is granted (refusal in constructors is treated in C60)
  deriving DecidableEq, Repr

/-- What an operation reports. -/
inductive VRet (α : Type) where
  | done
  | val (a : α)
  | size (n : Nat)
  | exc (e : Exc)
  deriving DecidableEq, Repr

namespace Vec
variable {α : Type}

/-- Report of a call on `v`. -/
def report {β : Type} (f : β → VRet α) (w : Vec α) (x : Res (Vec α × Ret β)) : Res ((Vec α × Vec α) × VRet α) :=
  match x with
  | .ok (v, .val b) => .ok ((v, w), f b)
  | .ok (v, .exc e) => .ok ((v, w), .exc e)
  | .throw e => .throw e
  | .ub u => .ub u
  | .diverge => .diverge
  | .exit c => .exit c

/-- One operation; exceptions are caught by the caller and reported. -/
def step (cfg : Cfg α) (grant : Bool) (s : Vec α × Vec α) : VOp α → Res ((Vec α × Vec α) × VRet α)
  | .pushBack a => report (fun _ => .done) s.2 (pushBack cfg grant s.1 (.val a))
  | .popBack => report .val s.2 (popBack s.1)
  | .insertN i n a => report (fun _ => .done) s.2 (insertN cfg grant s.1 i n (.val a))
  | .insertRange i xs => report (fun _ => .done) s.2 (insertRange cfg grant s.1 i (xs.map some))
  | .erase f l => report (fun _ => .done) s.2 (erase cfg s.1 f l)
  | .erase1 i => report (fun _ => .done) s.2 (erase1 cfg s.1 i)
  | .resize n => report (fun _ => .done) s.2 (resize cfg grant s.1 n)
  | .resizeA n a => report (fun _ => .done) s.2 (resizeA cfg grant s.1 n (.val a))
  | .reserve n => report (fun _ => .done) s.2 (reserve cfg grant s.1 n)
  | .assignN n a => report (fun _ => .done) s.2 (assignN cfg grant s.1 n (.val a))
  | .assignRange xs => report (fun _ => .done) s.2 (assignRange cfg grant s.1 (xs.map some))
  | .assignSelf => report (fun _ => .done) s.2 (assignSelf cfg grant s.1)
  | .clear => report (fun _ => .done) s.2 (clear s.1)
  | .at_ i => report .val s.2 (at_ s.1 i)
  | .index i => do
    let a ← index s.1 i
    .ok (s, .val a)
  | .size => .ok (s, .size s.1.size)
  | .swap => .ok (swap s.1 s.2, .done)
  | .assignVec => report (fun _ => .done) s.2 (assignVec cfg grant s.1 s.2)
  | .copy => do
    let w ← copy cfg true s.1
    .ok ((s.1, w), .done)

/-- A history; each operation comes with the answer of the allocator. -/
def run (cfg : Cfg α) (s : Vec α × Vec α) : List (VOp α × Bool) → Res ((Vec α × Vec α) × List (VRet α))
  | [] => .ok (s, [])
  | (op, g) :: ops => do
    let (s, r) ← step cfg g s op
    let (s, rs) ← run cfg s ops
    .ok (s, r :: rs)

end Vec
end Eni
