import Verif.Model.JsonOwner
import Verif.Model.JsonParser
/-!
# `json::Callbacks` in memory (include/eni/json/Callbacks.h)

Model/JsonParser lets the callbacks work on values as pure data. Here the same member functions work on values in memory (Model/JsonOwner):
every local variable, argument passed by value, element of `m_Stack` and the member `m_Root` is a variable of the stack frame, with the
copies, moves and destructions that C++ prescribes.

Simplified: strings and keys (`std::string`) are pure data. The local `Array a` and `Object o` of `begin_array` and `begin_object` stay empty
and are not shown. `std::vector<pair<Value, string>>` is library code; what it does with its elements when it runs out of room is shown in
`copyAll`, `destroyAll`; when it runs out of room is a parameter (`grow`).
-/
namespace Eni
namespace Owner
open Json (Ev)

/-- `m_Stack` (top first) and `m_Root` (Callbacks.h 104-105) as numbers of variables; `n` is the number of variables so far. -/
structure Cb where
  n : Nat
  stack : List (Nat × Bytes)
  root : Nat
  deriving DecidableEq, Repr

/-- Statements of which only the effect on the heap matters. -/
def exec (h : Heap) (ops : List Op) : Res Heap := do
  let (h, _) ← run h ops
  .ok h

/-- The body of `set_parent` (Callbacks.h 81-92); `pv` is the parameter. `isObject`, `isArray` look at the type (Notation.h 35-36). -/
def attach (h : Heap) (cb : Cb) (pv : Nat) : Res Heap :=
  match cb.stack with
  | [] => exec h [.assign [.elem cb.root] [.elem pv]]
  | (par, key) :: _ => do
    let w ← readAt h ⟨0, par⟩
    if w.ty = .obj then exec h [.setMember [.elem par] key [.elem pv]]
    else if w.ty = .arr then exec h [.pushBack [.elem par] [.elem pv]]
    else .ok h

/-- `set_parent(v)` (Callbacks.h 80-93): the parameter is a copy of `v` and is destroyed at the end. -/
def setParentM (h : Heap) (cb : Cb) (v : Nat) : Res (Heap × Cb) := do
  let h ← exec h [.copy [.elem v]]
  let h ← attach h cb cb.n
  let h ← exec h [.destroy cb.n]
  .ok (h, { cb with n := cb.n + 1 })

/-- `std::vector` runs out of room: the elements are copied to the new block, the first element first. They are not moved because the move
constructor of `Value` (Value.h 37) is not `noexcept`. -/
def copyAll (h : Heap) (n : Nat) : List (Nat × Bytes) → Res (Heap × List (Nat × Bytes))
  | [] => .ok (h, [])
  | (i, k) :: s => do
    let (h, s') ← copyAll h n s
    let h ← exec h [.copy [.elem i]]
    .ok (h, (n + s.length, k) :: s')

/-- Then the old elements are destroyed. Also the end of the vector's lifetime. -/
def destroyAll (h : Heap) : List (Nat × Bytes) → Res Heap
  | [] => .ok h
  | (i, _) :: s => do
    let h ← destroyAll h s
    exec h [.destroy i]

/-- `begin_array` (Callbacks.h 55-59) and `begin_object` (67-71); `mk` constructs `v`. `make_pair` copies `v`; the pair is converted to
`pair<Value, string>` by moving, and moved into the vector. The two moved-from values and `v` are destroyed at the end. -/
def begin_ (grow : Nat → Bool) (h : Heap) (cb : Cb) (mk : Op) : Res (Heap × Cb) := do
  let n := cb.n
  let h ← exec h [mk, .copy [.elem n], .move [.elem (n + 1)], .move [.elem (n + 2)]]
  if grow cb.stack.length then do
    let (h, s) ← copyAll h (n + 4) cb.stack
    let h ← destroyAll h cb.stack
    let h ← exec h [.destroy (n + 2), .destroy (n + 1), .destroy n]
    .ok (h, { cb with n := n + 4 + cb.stack.length, stack := (n + 3, []) :: s })
  else do
    let h ← exec h [.destroy (n + 2), .destroy (n + 1), .destroy n]
    .ok (h, { cb with n := n + 4, stack := (n + 3, []) :: cb.stack })

/-- `end_array` (Callbacks.h 61-65) and `end_object` (73-77). -/
def end_ (h : Heap) (cb : Cb) : Res (Heap × Cb) :=
  match cb.stack with
  | [] => .ub .outOfBounds
  | (top, _) :: rest => do
    let v := cb.n
    let h ← exec h [.copy [.elem top], .destroy top]
    let (h, cb) ← setParentM h { cb with n := cb.n + 1, stack := rest } v
    let h ← exec h [.destroy v]
    .ok (h, cb)

/-- `on_boolean` (Callbacks.h 31-34) and `on_string` for values (49-51): `mk` constructs `v`. -/
def scalar (h : Heap) (cb : Cb) (mk : Op) : Res (Heap × Cb) := do
  let v := cb.n
  let h ← exec h [mk]
  let (h, cb) ← setParentM h { cb with n := cb.n + 1 } v
  let h ← exec h [.destroy v]
  .ok (h, cb)

/-- One call. `on_number` (Callbacks.h 36-42) lets `v` point to the local variable `i`; `v` was declared first, so `i` goes out of scope
before `v` is destroyed. A key (45-47) is only stored. -/
def cbStepM (grow : Nat → Bool) (h : Heap) (cb : Cb) : Ev → Res (Heap × Cb)
  | .boolean b => scalar h cb (.bool b)
  | .number s => do
    let v := cb.n
    let h ← exec h [.undef, .delegateInt [.elem v] (Value.s256OfText s)]
    let (h, cb) ← setParentM h { cb with n := cb.n + 1 } v
    let h ← exec h [.dropInt v]
    .ok (h, cb)
  | .string s true =>
    match cb.stack with
    | [] => .ub .outOfBounds
    | (i, _) :: rest => .ok (h, { cb with stack := (i, s) :: rest })
  | .string s false => scalar h cb (.str s)
  | .beginArray => begin_ grow h cb .array
  | .beginObject => begin_ grow h cb .object
  | .endArray => end_ h cb
  | .endObject => end_ h cb

/-- The calls in order. -/
def cbRunM (grow : Nat → Bool) (h : Heap) (cb : Cb) : List Ev → Res (Heap × Cb)
  | [] => .ok (h, cb)
  | e :: es => do
    let (h, cb) ← cbStepM grow h cb e
    cbRunM grow h cb es

/-- `Parser(const std::string&)` (Parser.h 44-54) with `Callbacks()` (Callbacks.h 29), in a program with `n` variables so far: variable `n` is
`m_Root`. The calls are collected as in Model/JsonParser. -/
def parseAt (grow : Nat → Bool) (L : Json.Layout) (h : Heap) (n : Nat) (s : Bytes) : Res (Heap × Cb × Bool) := do
  let h ← exec h [.undef]
  match Json.parseValue L (s.length + 1) ⟨s, []⟩ with
  | .ok _ st => do
    let (h, cb) ← cbRunM grow h ⟨n + 1, [], n⟩ st.ev
    .ok (h, cb, true)
  | .err _ st => do
    let (h, cb) ← cbRunM grow h ⟨n + 1, [], n⟩ st.ev
    .ok (h, cb, false)
  | .ub u => .ub u
  | .diverge => .diverge

/-- The same in a program without other variables. -/
def parseM (grow : Nat → Bool) (L : Json.Layout) (s : Bytes) : Res (Heap × Cb × Bool) := parseAt grow L Heap.init 0 s

/-- The end of the lifetime of the parser: `~Callbacks` destroys `m_Root` and then `m_Stack`. -/
def finishM (h : Heap) (cb : Cb) : Res Heap := do
  let h ← exec h [.destroy cb.root]
  destroyAll h cb.stack

/-- Construction and destruction of an `EniBase` (eni.cpp 15-26) as far as `m_Args` is concerned: `m_Args = parser.getRoot()`, the parser is
destroyed, and later `m_Args`. A text that is not accepted ends the process (`exit(87)`). -/
def lifetime (grow : Nat → Bool) (L : Json.Layout) (s : Bytes) : Res Heap := do
  let (h, cb, ok) ← parseM grow L s
  if ok then do
    let h ← exec h [.undef, .assign [.elem cb.n] [.elem cb.root]]
    let h ← finishM h { cb with n := cb.n + 1 }
    exec h [.destroy cb.n]
  else .exit 87

end Owner
end Eni
