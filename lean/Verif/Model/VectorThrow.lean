import Verif.Model.VectorObj
/-!
# `eni::Vector` of objects whose copies may fail (include/eni/adt/bits/Vector.tcc)

The functions of Model/VectorObj once more, for element types whose `operator=` or copy constructor may throw (a copy of a string needs memory).
Which copies fail is a parameter: `boom k` says whether the `k`-th copy made by the program throws. No function of Vector.tcc contains a `catch`
or a guard object, so an exception leaves the vector in the state it has at that moment; the order of the single assignments matters, and
`std::copy`, `std::copy_backward` and `std::fill_n` are modelled assignment by assignment.

Simplified as in Model/VectorObj; moreover a copy that throws leaves its target as it was (`json::Value`, whose `operator=` changes the kind before the
content, is not like that), and the constructors that are called for the default value of `resize` and for `emplace_back` do not throw.
-/
namespace Eni.OThr
open OVec
variable {α : Type}

/-- State after an action: the vector, the number of copies tried so far by the program, and whether an exception is on its way. -/
structure Ran (α : Type) where
  vec : OVec α
  n : Nat
  thrown : Bool
  deriving DecidableEq, Repr

/-- An action on a vector. -/
abbrev Act (α : Type) := OVec α → Nat → Res (Ran α)

/-- One action after the other; an exception skips the second. -/
def andThen (f g : Act α) : Act α := fun v n => do
  let r ← f v n
  if r.thrown then .ok r else g r.vec r.n

/-- An action without copies. -/
def lift (f : OVec α → Res (OVec α)) : Act α := fun v n => do
  let v ← f v
  .ok ⟨v, n, false⟩

/-- `m_DataSize = n` -/
def setSize (s : Nat) : Act α := lift fun v => .ok { v with size := s }

/-- One assignment `m_Data[i] = a`; what the target must be like: `OVec.over`. -/
def assign1 (c : OCls α) (boom : Nat → Bool) (i : Nat) (a : α) : Act α := fun v n =>
  match v.data with
  | none => .ub .nullDeref
  | some cells =>
    match cells[i]? with
    | none => .ub .outOfBounds
    | some x => do
      let k ← over c x
      if boom n then .ok ⟨v, n + 1, true⟩
      else .ok ⟨{ v with data := some (cells.set i (.obj a)), made := v.made + 1, released := v.released + k }, n + 1, false⟩

/-- `std::fill_n` and `std::copy` from outside of the vector. -/
def fill (c : OCls α) (boom : Nat → Bool) (i : Nat) : List α → Act α
  | [] => lift .ok
  | a :: as => andThen (assign1 c boom i a) (fill c boom (i + 1) as)

/-- `m_Data[dst] = m_Data[src]` -/
def copy1 (c : OCls α) (boom : Nat → Bool) (src dst : Nat) : Act α := fun v n => do
  let a ← readO c v.data src
  assign1 c boom dst a v n

/-- `std::copy(m_Data + src, m_Data + src + len, m_Data + dst)`, first element first. -/
def copyFwd (c : OCls α) (boom : Nat → Bool) (src dst : Nat) : Nat → Act α
  | 0 => lift .ok
  | len + 1 => andThen (copy1 c boom src dst) (copyFwd c boom (src + 1) (dst + 1) len)

/-- `std::copy_backward(m_Data + src, m_Data + src + len, m_Data + dst + len)`, last element first. -/
def copyBack (c : OCls α) (boom : Nat → Bool) (src dst : Nat) : Nat → Act α
  | 0 => lift .ok
  | len + 1 => andThen (copy1 c boom (src + len) (dst + len)) (copyBack c boom src dst len)

/-- `resize` (bits/Vector.tcc 103-116): the size is set after the elements have been assigned. -/
def resize (c : OCls α) (boom : Nat → Bool) (s : Nat) (a : α) : Act α :=
  andThen (lift fun v => OVec.reserve c v s) fun v =>
    andThen (if s > v.size then fill c boom v.size (List.replicate (s - v.size) a) else lift .ok) (setSize s) v

/-- `push_back` (bits/Vector.tcc 228-233): in `m_Data[m_DataSize++] = pValue` the size is incremented before `operator=` is called. -/
def pushBack (c : OCls α) (boom : Nat → Bool) (a : α) : Act α := fun v =>
  andThen (lift fun v => OVec.reserve c v (v.size + 1)) (fun w => andThen (setSize (w.size + 1)) (assign1 c boom w.size a) w) v

/-- `emplace_back` (bits/Vector.tcc 241-247): the object made by `new` remains, whether or not it can be copied. -/
def emplaceBack (c : OCls α) (boom : Nat → Bool) (a : α) : Act α :=
  andThen (lift fun v => .ok { v with made := v.made + 1 }) (pushBack c boom a)

/-- `pop_back` (bits/Vector.tcc 235-239): the size is decremented, then the element is copied into the result. -/
def popBack (c : OCls α) (boom : Nat → Bool) (v : OVec α) (n : Nat) : Res (Ran α × VRet α) :=
  if v.size = 0 then .ub .outOfBounds
  else do
    let a ← readO c v.data (v.size - 1)
    .ok (⟨{ v with size := v.size - 1 }, n + 1, boom n⟩, .val a)

/-- `insert(size_type, ..)` (bits/Vector.tcc 281-318) of the values `xs`, the index being in range. -/
def insert (c : OCls α) (boom : Nat → Bool) (i : Nat) (xs : List α) : Act α := fun v =>
  andThen (resize c boom (v.size + xs.length) c.dflt)
    (andThen (copyBack c boom i (i + xs.length) (v.size - i)) (fill c boom i xs)) v

/-- `erase(size_type, size_type)` (bits/Vector.tcc 342-350), the indices being in range. -/
def erase (c : OCls α) (boom : Nat → Bool) (first last : Nat) : Act α := fun v =>
  andThen (copyFwd c boom last first (v.size - last)) (resize c boom (v.size - (last - first)) c.dflt) v

/-- `assign` and `operator=` (bits/Vector.tcc 53-65, 208-226) with the values `xs`. -/
def assign (c : OCls α) (boom : Nat → Bool) (xs : List α) : Act α :=
  andThen (resize c boom xs.length c.dflt) (fill c boom 0 xs)

/-- What the caller of a function learns: what it reports (Model/VectorObj), or that the exception of a copy came out of it. -/
inductive TRet (α : Type) where
  | ret (r : VRet α)
  | thrown
  deriving DecidableEq, Repr

/-- The caller catches the exception. -/
def caught (r : Ran α) (ret : VRet α) : OVec α × Nat × TRet α := (r.vec, r.n, if r.thrown then .thrown else .ret ret)

/-- One call. -/
def step (c : OCls α) (boom : Nat → Bool) (v : OVec α) (n : Nat) : Op α → Res (OVec α × Nat × TRet α)
  | .pushBack a => do .ok (caught (← pushBack c boom a v n) .done)
  | .emplaceBack a => do .ok (caught (← emplaceBack c boom a v n) .done)
  | .popBack => do
    let (r, a) ← popBack c boom v n
    .ok (caught r a)
  | .insert i xs =>
    if i > v.size then .ok (v, n, .ret (.exc .invalidVectorIndex))
    else do .ok (caught (← insert c boom i xs v n) .done)
  | .erase f l =>
    if f ≥ l ∨ l ≥ v.size then .ok (v, n, .ret (.exc .invalidVectorIndex))
    else do .ok (caught (← erase c boom f l v n) .done)
  | .resize s a => do .ok (caught (← resize c boom s a v n) .done)
  | .reserve s => do .ok (← OVec.reserve c v s, n, .ret .done)
  | .assign xs => do .ok (caught (← assign c boom xs v n) .done)
  | .clear => .ok (OVec.clear v, n, .ret .done)
  | .at_ i => do .ok (v, n, .ret (← OVec.at_ c v i))

/-- A history. -/
def run (c : OCls α) (boom : Nat → Bool) (v : OVec α) (n : Nat) : List (Op α) → Res (OVec α × Nat × List (TRet α))
  | [] => .ok (v, n, [])
  | op :: ops => do
    let (v, n, r) ← step c boom v n op
    let (v, n, rs) ← run c boom v n ops
    .ok (v, n, r :: rs)

end Eni.OThr
