import Verif.Proofs.JsonOwnerRun
/-!
# Properties C34, C63: storage of JSON values

`Owner.run` executes a program (a list of constructions, copies, moves, assignments, destructions, array and object operations,
delegations) on a heap; `Spec.pruns` says what the program should do if values were plain trees. `Spec.Holds h v t l`: the value `v`
stands for the tree `t` and consists of the heap cells `l`.
-/
namespace Eni.Props
open Spec Owner

/-! ### C34 -/

/-- C34, the part that holds: programs that avoid the aliasing situations listed at `pstep`. Such a program, of any length, runs without
undefined behaviour, in particular without a double free or a use after free; it observes what plain trees would give (a delegation to a
defined value throws and changes nothing); and in the end the variables are those trees, with no storage cell shared by two values. -/
theorem C34_values_partial (ops : List Op) (t : Tree) (rs : List Rep) (h : pruns (.arr []) ops = some (t, rs)) :
    ∃ hp, run Heap.init ops = .ok (hp, rs) ∧ ∃ l, Holds hp frame t l ∧ l.Nodup := by
  obtain ⟨hp, h1, l, h2, h3, _⟩ := run_sim Inv.init h
  exact ⟨hp, h1, l, h2, h3⟩

/-- C34, every prefix: also before the last operation nothing is shared, and the next permitted operation succeeds. -/
theorem C34_next_partial (ops : List Op) (t : Tree) (rs : List Rep) (h : pruns (.arr []) ops = some (t, rs)) (op : Op) (t' : Tree) (r : Rep)
    (ho : pstep t op = some (t', r)) :
    ∃ hp hp', run Heap.init ops = .ok (hp, rs) ∧ step hp op = .ok (hp', r) ∧ ∃ l l', Holds hp frame t l ∧ l.Nodup ∧ Holds hp' frame t' l' ∧ l'.Nodup := by
  obtain ⟨hp, h1, I⟩ := run_sim Inv.init h
  obtain ⟨hp', h2, I'⟩ := step_sim I ho
  obtain ⟨l, a, b, _⟩ := I
  obtain ⟨l', a', b', _⟩ := I'
  exact ⟨hp, hp', h1, h2, l, l', a, b, a', b'⟩

/-- C34, delegation: on a value that is already defined it throws and leaves every variable as it was. -/
theorem C34_delegate (ops : List Op) (t : Tree) (rs : List Rep) (h : pruns (.arr []) ops = some (t, rs)) (dst : Path) (hd : dst ≠ []) (u : Tree)
    (hu : t.get dst = some u) (hne : u ≠ .undef) (op : Op) (hop : (∃ z, op = .delegateInt dst z) ∨ op = .delegateArray dst ∨ op = .delegateObject dst) :
    ∃ hp, run Heap.init (ops ++ [op]) = .ok (hp, rs ++ [.threw]) ∧ ∃ l, Holds hp frame t l ∧ l.Nodup := by
  have hst : pstep t op = some (t, .threw) := by
    have key : ∀ x, pstep.delegated t dst x = some (t, .threw) := by
      intro x
      unfold pstep.delegated
      rw [if_neg hd, hu]
      cases u <;> first | exact absurd rfl hne | rfl
    rcases hop with ⟨z, rfl⟩ | rfl | rfl <;> exact key _
  obtain ⟨hp, h1, I⟩ := run_sim Inv.init h
  obtain ⟨hp', h2, l', a', b', _⟩ := step_sim I hst
  refine ⟨hp', ?_, l', a', b'⟩
  have happ : ∀ (ops : List Op) (h hp : Owner.Heap) (rs : List Rep), run h ops = .ok (hp, rs) → run h (ops ++ [op]) = run hp [op] >>= fun x => .ok (x.1, rs ++ x.2) := by
    intro ops
    induction ops with
    | nil =>
      intro h hp rs e
      cases e
      show run h [op] = _
      cases run h [op] <;> rfl
    | cons o ops ih =>
      intro h hp rs e
      simp only [run, Res.bind_eq_ok] at e
      obtain ⟨⟨h1, r1⟩, e1, ⟨h2, rs2⟩, e2, e3⟩ := e
      cases e3
      show (step h o >>= fun x => run x.1 (ops ++ [op]) >>= fun y => Res.ok (y.1, x.2 :: y.2)) = _
      rw [e1, Res.ok_bind, ih _ _ _ e2]
      dsimp only
      generalize run h2 [op] = z
      cases z <;> rfl
  rw [happ _ _ _ _ h1]
  simp [run, h2]

/-- A program with objects, strings, arrays, a copy, a move, assignments to parts, self-assignment, destructions and delegations. -/
example : ∃ t, pruns (.arr []) [.object, .str [120], .setMember [.elem 0] [107] [.elem 1], .copy [.elem 0], .array, .pushBack [.elem 3] [.elem 2],
    .assign [.elem 3, .elem 0, .mem [107]] [.elem 0], .move [.elem 0], .destroy 0, .destroy 4, .popBack [.elem 3], .assign [.elem 0] [.elem 0],
    .eraseMember [.elem 2] [107], .delegateInt [.elem 2] 5, .delegateArray [.elem 0]] =
    some (t, [.done, .done, .done, .done, .done, .done, .done, .done, .done, .done, .done, .done, .erased true, .threw, .done]) :=
  ⟨_, by simp (config := { decide := true }) [pruns, pstep, pstep.delegated, Tree.declare, Tree.kids, Tree.withKids, Tree.get, Tree.set, Tree.pos]; rfl⟩

/-- C34 is false of the code: assigning a value to a part of itself, `a = [1]; a[0] = a`. `operator=` first changes the type of `a[0]` to
ARRAY and then copies `a`, reading the pointer to the number as a pointer to an array. -/
theorem C34_assign_whole_to_part_false : run Heap.init [.array, .int 1, .pushBack [.elem 0] [.elem 1], .assign [.elem 0, .elem 0] [.elem 0]] = .ub .badUnion := by
  rfl

/-- C34 is false of the code: `a.push_back(a)` for an array `a` copies the element that is being written, whose union is uninitialised. -/
theorem C34_push_back_self_false : run Heap.init [.array, .pushBack [.elem 0] [.elem 0]] = .ub .uninit := by
  rfl

/-- C34 is false of the code: `o["k"] = o` for an object without member "k" follows a null pointer. -/
theorem C34_member_self_false : run Heap.init [.object, .setMember [.elem 0] [107] [.elem 0]] = .ub .nullDeref := by
  rfl

/-- C34 is false of the code: `a.push_back(a[0])` reads the element after `realloc` released it (if the block moves, see C19). -/
theorem C34_push_back_own_element_false : run Heap.init [.array, .int 1, .pushBack [.elem 0] [.elem 1], .pushBack [.elem 0] [.elem 0, .elem 0]] = .ub .useAfterFree := by
  rfl

/-- The reading of plain trees for the four programs exists: as trees, `[[1]]`, `[[]]`, `{k: {}}`, `[1, 1]` are what one expects; `pstep` excludes them. -/
example : pruns (.arr []) [.array, .pushBack [.elem 0] [.elem 0]] = none := by
  simp (config := { decide := true }) [pruns, pstep, Tree.declare, Tree.kids, Tree.withKids, Tree.get, Tree.pos]

/-! ### C63 -/

/-- `p` is a heap object that has not been released (cell 0 holds the variables themselves). -/
def Live (h : Owner.Heap) (p : Nat) : Prop := p ≠ 0 ∧ h.cell p ≠ none

/-- C63 is false of the code: numbers are never released. -/
theorem C63_number_leaks_false (z : Int) : ∃ h, run Heap.init [.int z, .destroy 0] = .ok (h, [.done, .done]) ∧ Live h 1 :=
  ⟨_, rfl, by decide, Option.some_ne_none (Owner.Cell.int z)⟩

/-- C63 is false of the code: elements of arrays are never released. -/
theorem C63_elements_leak_false (s : Bytes) :
    ∃ h, run Heap.init [.array, .str s, .pushBack [.elem 0] [.elem 1], .destroy 0, .destroy 1] = .ok (h, [.done, .done, .done, .done, .done]) ∧ Live h 3 :=
  ⟨_, rfl, by decide, Option.some_ne_none (Owner.Cell.str s)⟩

/-- C63 is false of the code: assignment does not release the former contents. -/
theorem C63_assignment_leaks_false (s s' : Bytes) :
    ∃ h, run Heap.init [.str s, .str s', .assign [.elem 0] [.elem 1], .destroy 0, .destroy 1] = .ok (h, [.done, .done, .done, .done, .done]) ∧ Live h 1 :=
  ⟨_, rfl, by decide, Option.some_ne_none (Owner.Cell.str s)⟩

/-- C63, the part that holds: destroying a variable that holds only strings, booleans and objects of such releases every cell of it,
and no other cell. -/
theorem C63_destroy_partial (ops : List Op) (t : Tree) (rs : List Rep) (h : pruns (.arr []) ops = some (t, rs)) (i : Nat) (u : Tree)
    (hu : t.get [.elem i] = some u) (hl : u.Light) :
    ∃ hp v l hp', run Heap.init ops = .ok (hp, rs) ∧ readAt hp ⟨0, i⟩ = .ok v ∧ Holds hp v u l ∧ step hp (.destroy i) = .ok (hp', .done) ∧
      (∀ q ∈ l, hp'.cell q = none) ∧ (∀ q, q ∉ l → q ≠ 0 → hp'.cell q = hp.cell q) := by
  obtain ⟨hp, h1, l, H, nd, hlt, hf⟩ := run_sim Inv.init h
  obtain ⟨d, wd, ld, lr, cd, g1, g2, g2', g3, g4, g5, g6, g7, _⟩ := focus [.elem i] H nd (by simp) hu
  obtain ⟨n1, n2, n3⟩ := List.nodup_append.mp (g4.nodup_iff.mp nd)
  have hfuel : ld.length < hp.fuel := by
    have := length_le_of_lt n1 (fun q hq => hlt q (g4.mem_iff.mpr (by simp [hq])))
    simp [Heap.fuel]; omega
  obtain ⟨h', e1, e2, e3, e4⟩ := destroy_spec hp.fuel hp wd u ld hfuel g3 n1
  obtain ⟨h'', e1', e5⟩ := destroy_light hp.fuel hp wd u ld hfuel g3 n1 hl
  rw [e1] at e1'
  cases e1'
  have hd : d = ⟨0, i⟩ := by
    simp only [locate, stepInto, frame, if_true, Heap.deref] at g1
    cases H with
    | arr hc _ =>
      simp only [hc, Res.ok_bind] at g1
      split at g1
      · cases g1; rfl
      · cases g1
  subst hd
  have hc' : h'.cell 0 = some cd := by
    rw [e3 0 (fun hq => n3 0 hq 0 g5 rfl)]
    exact g6
  refine ⟨hp, wd, ld, h'.put 0 (cd.withKids (cd.kids.set i ⟨.undef, .null⟩)), h1, g2, g3, by simp only [step, g1, g2, e1, Res.ok_bind, writeAt_ok (d := ⟨0, i⟩) hc' g7], ?_, ?_⟩
  · intro q hq
    have : q ≠ 0 := fun e => n3 q hq 0 g5 e
    rw [put_other _ _ this, e5 q hq]
  · intro q hq h0
    rw [put_other _ _ h0, e3 q hq]

/-- an object with a string member -/
example : ∃ t u, pruns (.arr []) [.object, .str [120], .setMember [.elem 0] [107] [.elem 1]] = some (t, [.done, .done, .done]) ∧
    t.get [.elem 0] = some u ∧ u = .obj [[107]] [.str [120]] ∧ u.Light :=
  ⟨_, _, by simp (config := { decide := true }) [pruns, pstep, Tree.declare, Tree.kids, Tree.withKids, Tree.get, Tree.set, Tree.pos]; rfl, rfl, rfl,
   .obj (by simp; exact .str)⟩

/-- C63, arrays: destroying a variable that holds an array releases the array itself and no other cell, whatever its elements own. -/
theorem C63_array_partial (ops : List Op) (t : Tree) (rs : List Rep) (h : pruns (.arr []) ops = some (t, rs)) (i : Nat) (us : List Tree)
    (hu : t.get [.elem i] = some (.arr us)) :
    ∃ hp p l hp', run Heap.init ops = .ok (hp, rs) ∧ readAt hp ⟨0, i⟩ = .ok ⟨.arr, .ptr p⟩ ∧ Holds hp ⟨.arr, .ptr p⟩ (.arr us) (p :: l) ∧
      step hp (.destroy i) = .ok (hp', .done) ∧ Live hp p ∧ hp'.cell p = none ∧ ∀ q, q ≠ p → q ≠ 0 → hp'.cell q = hp.cell q := by
  obtain ⟨hp, h1, l, H, nd, hlt, hf⟩ := run_sim Inv.init h
  obtain ⟨d, wd, ld, lr, cd, g1, g2, g2', g3, g4, g5, g6, g7, _⟩ := focus [.elem i] H nd (by simp) hu
  obtain ⟨n1, n2, n3⟩ := List.nodup_append.mp (g4.nodup_iff.mp nd)
  have hd : d = ⟨0, i⟩ := by
    simp only [locate, stepInto, frame, if_true, Heap.deref] at g1
    cases H with
    | arr hc _ =>
      simp only [hc, Res.ok_bind] at g1
      split at g1
      · cases g1; rfl
      · cases g1
  subst hd
  cases g3 with
  | @arr p vs _ l' hc hall =>
    have hp0 : p ≠ 0 := fun e => n3 p (by simp) 0 g5 e
    have hdes : Owner.destroy hp.fuel hp ⟨.arr, .ptr p⟩ = .ok { hp with cell := fun q => if q = p then none else hp.cell q } := by
      simp [Heap.fuel, Owner.destroy, Heap.deref, hc, Owner.Heap.free]
    have hc' : ({ hp with cell := fun q => if q = p then none else hp.cell q } : Owner.Heap).cell 0 = some cd := by
      simp only [if_neg (Ne.symm hp0)]
      exact g6
    refine ⟨hp, p, l', ({ hp with cell := fun q => if q = p then none else hp.cell q } : Owner.Heap).put 0 (cd.withKids (cd.kids.set i ⟨.undef, .null⟩)), h1, g2, .arr hc hall,
      by simp only [step, g1, g2, hdes, Res.ok_bind, writeAt_ok (d := ⟨0, i⟩) hc' g7], ⟨hp0, by simp [hc]⟩, ?_, ?_⟩
    · rw [put_other _ _ hp0]; simp
    · intro q hq h0
      rw [put_other _ _ h0]; simp [hq]

example : ∃ t, pruns (.arr []) [.array, .str [120], .pushBack [.elem 0] [.elem 1]] = some (t, [.done, .done, .done]) ∧
    t.get [.elem 0] = some (.arr [.str [120]]) :=
  ⟨_, by simp (config := { decide := true }) [pruns, pstep, Tree.declare, Tree.kids, Tree.withKids, Tree.get, Tree.set, Tree.pos]; rfl, rfl⟩

/-- C63, erasing: erasing a member that consists only of strings, booleans and objects of such releases every cell of it, and apart from
the object that contained it every other cell stays as it was. -/
theorem C63_erase_partial (ops : List Op) (t : Tree) (rs : List Rep) (h : pruns (.arr []) ops = some (t, rs)) (dst : Path) (hd : dst ≠ [])
    (ks : List Bytes) (us : List Tree) (hu : t.get dst = some (.obj ks us)) (k : Bytes) (hk : k ∈ ks) (u : Tree) (hm : us[ks.idxOf k]? = some u) (hl : u.Light) :
    ∃ hp v l hp' p, run Heap.init ops = .ok (hp, rs) ∧ Holds hp v u l ∧ (∀ q ∈ l, hp.cell q ≠ none) ∧ step hp (.eraseMember dst k) = .ok (hp', .erased true) ∧
      (∀ q ∈ l, hp'.cell q = none) ∧ p ∉ l ∧ (∀ q, q ∉ l → q ≠ p → hp'.cell q = hp.cell q) := by
  obtain ⟨hp, h1, l, H, nd, hlt, hf⟩ := run_sim Inv.init h
  obtain ⟨d, wd, ld, lr, cd, g1, g2, g2', g3, g4, g5, g6, g7, _⟩ := focus dst H nd hd hu
  obtain ⟨n1, n2, n3⟩ := List.nodup_append.mp (g4.nodup_iff.mp nd)
  cases g3 with
  | @obj p _ vs _ lk hc hkl hall =>
    obtain ⟨v0, l1, l2, a1, a2, a3, _, a5, _⟩ := holdsAll_focus hall hm
    have hpk : p ∉ lk := (List.nodup_cons.mp n1).1
    have hl1 : ∀ q ∈ l1, q ∈ lk := fun q hq => a3.mem_iff.mpr (by simp [hq])
    obtain ⟨m1, m2, m3⟩ := List.nodup_append.mp (a3.nodup_iff.mp (List.nodup_cons.mp n1).2)
    have hsubd : ∀ q ∈ p :: lk, q < hp.next := fun q hq => hlt q (g4.mem_iff.mpr (by simp only [List.mem_append]; exact .inl hq))
    have hfuel : l1.length < hp.fuel := by
      have := length_le_of_lt m1 (fun q hq => hsubd q (by simp [hl1 q hq]))
      simp [Heap.fuel]; omega
    obtain ⟨h', e1, e2, e3, e4⟩ := destroy_spec hp.fuel hp v0 _ l1 hfuel a2 m1
    obtain ⟨h'', e1', e5⟩ := destroy_light hp.fuel hp v0 _ l1 hfuel a2 m1 hl
    rw [e1] at e1'
    cases e1'
    have hread : readAt hp ⟨p, ks.idxOf k⟩ = .ok v0 := by simp [readAt, hc, Cell.kids, a1]
    have hp1 : p ∉ l1 := fun hq => hpk (hl1 p hq)
    refine ⟨hp, v0, l1, h'.put p (.obj (ks.eraseIdx (ks.idxOf k)) (vs.eraseIdx (ks.idxOf k))), p, h1, a2, holds_live a2, ?_, ?_, hp1, ?_⟩
    · simp only [step, g1, g2, Res.ok_bind, if_true, Heap.deref, hc, hk, hread, e1]
    · intro q hq
      have hne : q ≠ p := fun e => hp1 (e ▸ hq)
      rw [put_other _ _ hne, e5 q hq]
    · intro q hq h0
      rw [put_other _ _ h0, e3 q hq]

example : ∃ t, pruns (.arr []) [.object, .str [120], .setMember [.elem 0] [107] [.elem 1]] = some (t, [.done, .done, .done]) ∧
    t.get [.elem 0] = some (.obj [[107]] [.str [120]]) ∧ [107] ∈ [[(107 : UInt8)]] ∧ [Tree.str [120]][[[(107 : UInt8)]].idxOf [107]]? = some (.str [120]) ∧ (Tree.str [120]).Light :=
  ⟨_, by simp (config := { decide := true }) [pruns, pstep, Tree.declare, Tree.kids, Tree.withKids, Tree.get, Tree.set, Tree.pos]; rfl, rfl, by simp, by simp, .str⟩

end Eni.Props
