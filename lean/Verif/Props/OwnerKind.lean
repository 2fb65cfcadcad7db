import Verif.Proofs.OwnerKind
/-! C126: the kind of a value describes its contents. -/
namespace Eni.Props
open Owner Spec

/-- C126, what holds: every program that uses values through their base class only to copy or move the kind between values of the same kind, or to make values
undefined, does what Spec/OwnerKind says; nothing undefined happens and no heap object belongs to two values. Missing: other kinds (the theorems `_false`). -/
theorem C126_programs_partial (ops : List NOp) (t : Tree) (rs : List Rep) (h : npruns (.arr []) ops = some (t, rs)) :
    ∃ hp l, runN Heap.init ops = .ok (hp, rs) ∧ Holds hp frame t l ∧ l.Nodup := by
  obtain ⟨hp, e, l, a, b, _⟩ := runN_sim Inv.init h
  exact ⟨hp, l, e, a, b⟩

/-- C126, the kind: after any such program every value reports the kind of what it holds, and can be copied. -/
theorem C126_kind_partial (ops : List NOp) (t : Tree) (rs : List Rep) (h : npruns (.arr []) ops = some (t, rs)) (path : Path) (hp : path ≠ []) (x : Tree)
    (hx : t.get path = some x) :
    ∃ hp d v lv h', runN Heap.init ops = .ok (hp, rs) ∧ locate hp frame path = .ok d ∧ readAt hp d = .ok v ∧ v.ty = x.kind ∧ Holds hp v x lv ∧
      stepN hp (.base (.base (.copy path))) = .ok (h', .done) := by
  obtain ⟨g, e, I⟩ := runN_sim Inv.init h
  obtain ⟨d, v, lv, h1, h2, h3⟩ := place_of I hp hx
  obtain ⟨h', e', _⟩ := stepN_sim I (op := .base (.base (.copy path))) (t' := t.declare x) (r := .done) (by simp [npstep, apstep, pstep, hp, hx])
  exact ⟨g, d, v, lv, h', e, h1, h2, holds_kind h3, h3, e'⟩

/-- `a = "x"; b = "y"; c = 5;` the kind of `a` is given to `b`, moved back, and the undefined value `b` makes `c` undefined. -/
example : ∃ t, npruns (.arr []) [.base (.base (.str [120])), .base (.base (.str [121])), .base (.base (.int 5)), .copyKind [.elem 1] [.elem 0],
    .moveKind [.elem 0] [.elem 1], .copyKind [.elem 2] [.elem 1], .base (.base (.copy [.elem 0])), .takeKind [.elem 0]]
      = some (t, [.done, .done, .done, .done, .done, .done, .done, .done]) ∧ t.get [.elem 0] = some .undef ∧ t.get [.elem 1] = some .undef ∧
        t.get [.elem 2] = some .undef ∧ t.get [.elem 3] = some (.str [120]) := ⟨_, rfl, rfl, rfl, rfl, rfl⟩

/-- C126 is false of the code (1): whatever the program did before, a value that is given another kind through the base class no longer holds what it reports, and
to copy it is undefined. -/
theorem C126_mixed_false (ops : List NOp) (t : Tree) (rs : List Rep) (h : npruns (.arr []) ops = some (t, rs)) (dst src : Path) (hd : dst ≠ []) (hs : src ≠ [])
    (x y : Tree) (hy : t.get dst = some y) (hx : t.get src = some x) (hk : y.kind ≠ x.kind) (hxu : x.kind ≠ .undef) (hyu : y.kind ≠ .undef) :
    ∃ hp hp' d v, runN Heap.init ops = .ok (hp, rs) ∧ stepN hp (.copyKind dst src) = .ok (hp', .done) ∧ locate hp frame dst = .ok d ∧
      readAt hp' d = .ok v ∧ v.ty = x.kind ∧ ∀ n, Owner.copy (n + 1) hp' v = .ub .badUnion := by
  obtain ⟨hp, e, I⟩ := runN_sim Inv.init h
  obtain ⟨l, s, ls, f1, f2, f3⟩ := place_of I hs hx
  obtain ⟨la, H, nd, hlt, hf⟩ := I
  obtain ⟨d, w, lu, lr, c, h1, h2, _, h3, h4, h5, h6, h7, hwk, _, h8⟩ := focus dst H nd hd hy
  obtain ⟨_, _, n3⟩ := List.nodup_append.mp (h4.nodup_iff.mp nd)
  refine ⟨hp, hp.put d.addr (c.withKids (c.kids.set d.idx ⟨s.ty, w.bits⟩)), d, ⟨s.ty, w.bits⟩, e, ?_, h1, ?_, show s.ty = x.kind from holds_kind f3, ?_⟩
  · simp only [stepN, h1, h2, f1, f2, writeAt_ok h6 h7, Res.ok_bind]
  · simp [readAt, put_cell, hwk, h7]
  · intro n
    have hcell : ∀ q ∈ lu, (hp.put d.addr (c.withKids (c.kids.set d.idx ⟨s.ty, w.bits⟩))).cell q = hp.cell q :=
      fun q hq => put_other _ _ (fun e => n3 q hq _ h5 e)
    exact copy_mixed (holds_mono h3 hcell) (by rw [holds_kind f3]; exact hk) (by rw [holds_kind f3]; exact hxu) hyu n

example := C126_mixed_false [.base (.base (.str [120])), .base (.base (.bool true))] _ _ rfl [.elem 0] [.elem 1] (by simp) (by simp) _ _ rfl rfl
  (by simp [Tree.kind]) (by simp [Tree.kind]) (by simp [Tree.kind])
/-- … for instance a string that is told to be an array, then copied; or destroyed. -/
example (s : Bytes) : runN Heap.init [.base (.base (.str s)), .base (.base .array), .copyKind [.elem 0] [.elem 1], .base (.base (.copy [.elem 0]))] = .ub .badUnion := by
  rfl
theorem C126_destroy_false (s : Bytes) :
    runN Heap.init [.base (.base (.str s)), .base (.base .array), .copyKind [.elem 0] [.elem 1], .base (.base (.destroy 0))] = .ub .badUnion := by rfl

/-- C126 is false of the code (2): a value that was moved from keeps its pointer. Given its kind back, it shares the string with its new owner, and is destroyed
after it: the string is released and then used again. -/
theorem C126_revived_false (s : Bytes) :
    runN Heap.init [.base (.base (.str s)), .base (.base (.move [.elem 0])), .copyKind [.elem 0] [.elem 1], .base (.base (.destroy 1)), .base (.base (.destroy 0))]
      = .ub .useAfterFree := by rfl

/-- C126 is false of the code (3): the kind of an undefined value can be set with nothing behind it. -/
theorem C126_null_false (s : Bytes) :
    runN Heap.init [.base (.base .undef), .base (.base (.str s)), .moveKind [.elem 0] [.elem 1], .base (.base (.copy [.elem 0]))] = .ub .nullDeref := by rfl

end Eni.Props
