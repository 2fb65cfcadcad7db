import Verif.Proofs.ParserFinal
import Verif.Spec.EniMem
/-!
# The entry points in memory
-/
namespace Eni.Owner
open Spec

/-! ### Reading -/

theorem holds_ty {h : Heap} {v : Val} {j : JV} {l : List Nat} (H : Holds h v j.tree l) : v.ty = j.ty := by
  cases j <;> simp only [JV.tree] at H <;> cases H <;> rfl

theorem fetch_holds {h : Heap} : ∀ (p : Path) {v : Val} {j : JV} {l : List Nat}, Holds h v j.tree l →
    (∃ x w l', j.part p = .ok x ∧ fetch h v p = .ok w ∧ Holds h w x.tree l') ∨ (∃ e, j.part p = .throw e ∧ fetch h v p = .throw e) ∨
      (j.part p = .ub .badUnion ∧ fetch h v p = .ub .badUnion) := by
  intro p
  induction p with
  | nil => intro v j l H; exact .inl ⟨j, v, l, rfl, rfl, H⟩
  | cons s ps ih =>
    intro v j l H
    have ht := holds_ty H
    cases s with
    | elem i =>
      cases j with
      | arr js =>
        have hg := tree_elem js i
        simp only [JV.tree] at H hg
        rw [get_var] at hg
        cases H with
        | @arr p vs _ l hc hall =>
          cases hj : js[i]? with
          | some x =>
            rw [hj] at hg
            obtain ⟨w, l1, _, a1, a2, _⟩ := holdsAll_focus hall hg
            rcases ih a2 with h1 | h1 | h1
            · obtain ⟨y, u, l', b1, b2, b3⟩ := h1
              exact .inl ⟨y, u, l', by simp [JV.part, hj, b1], by simp [fetch, Heap.deref, hc, a1, b2], b3⟩
            · obtain ⟨e, b1, b2⟩ := h1
              exact .inr (.inl ⟨e, by simp [JV.part, hj, b1], by simp [fetch, Heap.deref, hc, a1, b2]⟩)
            · exact .inr (.inr ⟨by simp [JV.part, hj, h1.1], by simp [fetch, Heap.deref, hc, a1, h1.2]⟩)
          | none =>
            have hlen : vs[i]? = none := by
              rw [hj] at hg
              have := holdsAll_length hall
              simp only [Option.map_none] at hg
              rw [List.getElem?_eq_none_iff] at hg ⊢
              omega
            exact .inr (.inl ⟨.invalidVectorIndex, by simp [JV.part, hj], by simp [fetch, Heap.deref, hc, hlen]⟩)
      | _ => exact .inr (.inr ⟨by simp [JV.part], by simp [fetch, ht, JV.ty]⟩)
    | mem k =>
      cases j with
      | obj ms =>
        have hg := tree_member ms k
        simp only [JV.tree] at H hg
        cases H with
        | @obj p ks vs ts l hc hlen hall =>
          by_cases hk : k ∈ (collect (membersOf ms)).1
          · simp only [Tree.get, Tree.pos, hk, if_true, Tree.kids, Option.bind_eq_bind, Option.bind_some] at hg
            have hi : (collect (membersOf ms)).1.idxOf k < (collect (membersOf ms)).2.length := hlen ▸ List.idxOf_lt_length_of_mem hk
            rw [List.getElem?_eq_getElem hi] at hg
            simp only [Option.bind_some] at hg
            cases hj : lastMember ms k with
            | none => rw [hj] at hg; simp at hg
            | some x =>
              rw [hj] at hg
              simp only [Option.map_some, Option.some.injEq] at hg
              obtain ⟨w, l1, _, a1, a2, _⟩ := holdsAll_focus hall (i := (collect (membersOf ms)).1.idxOf k) (t := x.tree) (by rw [List.getElem?_eq_getElem hi, hg])
              rcases ih a2 with h1 | h1 | h1
              · obtain ⟨y, u, l', b1, b2, b3⟩ := h1
                exact .inl ⟨y, u, l', by simp [JV.part, hj, b1], by simp [fetch, Heap.deref, hc, hk, a1, b2], b3⟩
              · obtain ⟨e, b1, b2⟩ := h1
                exact .inr (.inl ⟨e, by simp [JV.part, hj, b1], by simp [fetch, Heap.deref, hc, hk, a1, b2]⟩)
              · exact .inr (.inr ⟨by simp [JV.part, hj, h1.1], by simp [fetch, Heap.deref, hc, hk, a1, h1.2]⟩)
          · simp only [Tree.get, Tree.pos, hk, if_false, Option.bind_eq_bind, Option.bind_none] at hg
            have hj : lastMember ms k = none := by simpa using hg.symm
            exact .inr (.inl ⟨.invalidStringMapKey, by simp [JV.part, hj], by simp [fetch, Heap.deref, hc, hk]⟩)
      | _ => exact .inr (.inr ⟨by simp [JV.part], by simp [fetch, ht, JV.ty]⟩)

theorem rd_holds {α : Type} {h : Heap} {v : Val} {j : JV} {l : List Nat} (H : Holds h v j.tree l) : ∀ R : Rd α, R.runM h v = reads j R := by
  intro R
  induction R with
  | done r => rfl
  | str p k ih =>
    simp only [Rd.runM, reads]
    rcases fetch_holds p H with ⟨x, w, l', h1, h2, h3⟩ | ⟨e, h1, h2⟩ | ⟨h1, h2⟩
    · have ht := holds_ty h3
      rw [h1, h2]
      cases x <;> simp only [JV.ty] at ht <;> simp only [Res.ok_bind, ht, if_true, reduceCtorEq, if_false]
      rename_i s
      simp only [JV.tree] at h3
      cases h3 with
      | str hc => simp only [Heap.deref, hc, Res.ok_bind, ih]
    · rw [h1, h2]; rfl
    · rw [h1, h2]; rfl
  | int p k ih =>
    simp only [Rd.runM, reads]
    rcases fetch_holds p H with ⟨x, w, l', h1, h2, h3⟩ | ⟨e, h1, h2⟩ | ⟨h1, h2⟩
    · have ht := holds_ty h3
      rw [h1, h2]
      cases x <;> simp only [JV.ty] at ht <;> simp only [Res.ok_bind, ht, if_true, reduceCtorEq, if_false]
      simp only [JV.tree] at h3
      cases h3 with
      | int hc => simp only [Heap.deref, hc, Res.ok_bind, ih]
    · rw [h1, h2]; rfl
    · rw [h1, h2]; rfl
  | bool p k ih =>
    simp only [Rd.runM, reads]
    rcases fetch_holds p H with ⟨x, w, l', h1, h2, h3⟩ | ⟨e, h1, h2⟩ | ⟨h1, h2⟩
    · have ht := holds_ty h3
      rw [h1, h2]
      cases x <;> simp only [JV.ty] at ht <;> simp only [Res.ok_bind, ht, if_true, reduceCtorEq, if_false]
      simp only [JV.tree] at h3
      cases h3 with
      | bool => simp only [ih]
    · rw [h1, h2]; rfl
    · rw [h1, h2]; rfl
  | type p k ih =>
    simp only [Rd.runM, reads]
    rcases fetch_holds p H with ⟨x, w, l', h1, h2, h3⟩ | ⟨e, h1, h2⟩ | ⟨h1, h2⟩
    · rw [h1, h2]
      simp only [Res.ok_bind, ih, holds_ty h3]
    · rw [h1, h2]; rfl
    · rw [h1, h2]; rfl
  | size p k ih =>
    simp only [Rd.runM, reads]
    rcases fetch_holds p H with ⟨x, w, l', h1, h2, h3⟩ | ⟨e, h1, h2⟩ | ⟨h1, h2⟩
    · have ht := holds_ty h3
      rw [h1, h2]
      cases x <;> simp only [JV.ty] at ht <;> simp only [Res.ok_bind, ht, if_true, reduceCtorEq, if_false]
      rename_i js
      simp only [JV.tree] at h3
      cases h3 with
      | arr hc hall =>
        have hl := holdsAll_length hall
        have : (treesOf js).length = js.length := by
          clear *-
          induction js with
          | nil => rfl
          | cons j js ih => simp [treesOf, ih]
        simp only [Heap.deref, hc, Res.ok_bind, ih, hl, this]
    · rw [h1, h2]; rfl
    · rw [h1, h2]; rfl

/-! ### Results -/

/-- the tree of a result -/
def Sc.tree : Sc → Tree
  | .bool b => .bool b
  | .int z => .int z
  | .str s => .str s

theorem cellsAll_sc (outs : List Sc) : Tree.cellsAll (outs.map Sc.tree) = scCells outs := by
  induction outs with
  | nil => rfl
  | cons s ss ih =>
    simp only [scCells] at ih
    simp only [scCells, List.map_cons, Tree.cellsAll, ih, List.countP_cons]
    cases s <;> simp [Sc.tree, Tree.cells] <;> omega

/-- the variables that `emplace_back` leaves -/
def boxes (n : Nat) : List Sc → List (Nat × Tree)
  | [] => []
  | s :: ss => (n, s.tree) :: boxes (n + 1) ss

theorem boxes_snd (n : Nat) (outs : List Sc) : (boxes n outs).map Prod.snd = outs.map Sc.tree := by
  induction outs generalizing n with
  | nil => rfl
  | cons s ss ih => simp [boxes, ih]

theorem St.int {h n L a k} (s : St h n L a k) (z : Int) : ∃ h', exec h [.int z] = .ok h' ∧ St h' (n + 1) ((n, .int z) :: L) (a + 1) k :=
  s.step (n' := n + 1) (a' := 1) (k' := 0) fun ts F hl v _ => ⟨ts ++ [.int z], rfl, by simp [hl], hl ▸ v.new _, rfl, rfl⟩

theorem St.sc {h n L a k} (s : St h n L a k) (x : Sc) : ∃ h', exec h [x.op] = .ok h' ∧ St h' (n + 1) ((n, x.tree) :: L) (a + x.tree.cells) k := by
  cases x with
  | bool b => exact s.bool b
  | int z => exact s.int z
  | str y => exact s.str y

theorem emplace_sim : ∀ (outs : List Sc) {h : Heap} {n ret : Nat} {us : List Tree} {L : List (Nat × Tree)} {a k : Nat},
    St h n ((ret, .arr us) :: L) a k → ∃ h' a', emplaceAll h ret n outs = .ok h' ∧
      St h' (n + outs.length) ((ret, .arr (us ++ outs.map Sc.tree)) :: (boxes n outs ++ L)) a' k := by
  intro outs
  induction outs with
  | nil => intro h n ret us L a k s; exact ⟨h, a, rfl, by simpa [boxes] using s⟩
  | cons x xs ih =>
    intro h n ret us L a k s
    obtain ⟨h1, e1, s1⟩ := s.sc x
    obtain ⟨h2, e2, s2⟩ := (s1.perm (List.Perm.swap _ _ _)).push (j := n) (x := x.tree) (by simp)
    obtain ⟨h3, a3, e3, s3⟩ := ih s2
    refine ⟨h3, a3, by simp only [emplaceAll, exec_cons e1, e2, Res.ok_bind, e3], ?_⟩
    have hp : ((ret, Tree.arr (us ++ [x.tree] ++ xs.map Sc.tree)) :: (boxes (n + 1) xs ++ (n, x.tree) :: L)).Perm
        ((ret, Tree.arr (us ++ (x :: xs).map Sc.tree)) :: (boxes n (x :: xs) ++ L)) := by
      simp only [List.append_assoc, List.map_cons, List.singleton_append, boxes, List.cons_append]
      exact List.Perm.cons _ List.perm_middle
    have := s3.perm hp
    rwa [show n + 1 + xs.length = n + (x :: xs).length by simp; omega] at this

theorem printAll_sim {h : Heap} : ∀ (outs : List Sc) {vs : List Val} {l : List Nat}, HoldsAll h vs (outs.map Sc.tree) l →
    printAll h vs = .ok (outs.map fun s => Value.print s.val) := by
  intro outs
  induction outs with
  | nil => intro vs l H; cases H; rfl
  | cons s ss ih =>
    intro vs l H
    cases H with
    | @cons v _ l1 vs _ l2 h1 h2 =>
      have : printOne h v = .ok (Value.print s.val) := by
        cases s <;> simp only [Sc.tree] at h1 <;> cases h1
        · rfl
        · rename_i hc; simp [printOne, Heap.deref, hc, Sc.val, Value.print]
        · rename_i hc; simp [printOne, Heap.deref, hc, Sc.val, Value.print]
      simp only [printAll, this, Res.ok_bind, ih h2, List.map_cons]

theorem print_arr (vs : List Value) : Value.print (.arr vs) = 91 :: Value.printElems 0 (vs.map Value.print) ++ [93] := by
  rw [Value.print]
  simp

theorem printRet_sim {h : Heap} {n : Nat} {L : List (Nat × Tree)} {a k : Nat} {ret : Nat} {outs : List Sc} (s : St h n L a k)
    (hr : (ret, .arr (outs.map Sc.tree)) ∈ L) : printRet h ret = .ok (Value.print (.arr (outs.map Sc.val))) := by
  obtain ⟨w, l, h1, h2⟩ := s.type hr
  cases h2 with
  | arr hc hall =>
    simp only [printRet, h1, Res.ok_bind, if_true, Heap.deref, hc, printAll_sim outs hall, print_arr, List.map_map]
    rfl

/-! ### Construction and deletion -/

theorem St.delegateArr {h n L a k} {i : Nat} (s : St h n ((i, .undef) :: L) a k) :
    ∃ h', exec h [.delegateArray [.elem i]] = .ok h' ∧ St h' n ((i, .arr []) :: L) (a + 1) k :=
  s.step (n' := n) (a' := 1) (k' := 0) fun ts F hl v _ => by
    have hg := v.2.1 (i, .undef) (by simp)
    have hlt := v.lt (p := (i, .undef)) (by simp)
    simp only at hg
    exact ⟨ts.set i (.arr []), by simp [pstep, pstep.delegated, get_var, hg, set_var hlt], by simp [hl], v.set _, rfl,
      by simp [lostBy, isUndef, get_var, hg]⟩

theorem construct_sim {grow : Nat → Bool} {L : Json.Layout} {s : Bytes} {h0 h : Heap} {m : Nat} {cb : Cb} {x : Tree} {a k : Nat}
    (hp : parseAt grow L h0 m s = .ok (h, cb, true)) (hs : cb.stack = []) (st : St h cb.n [(cb.root, x)] a k) :
    ∃ h' a', constructAt grow L h0 m s = .ok (h', cb.n) ∧ St h' (cb.n + 2) [(cb.n + 1, .arr []), (cb.n, x)] a' (k + x.kept) := by
  obtain ⟨h1, e1, s1⟩ := st.undef
  obtain ⟨h2, e2, s2⟩ := s1.undef
  obtain ⟨h3, e3, s3⟩ := (s2.perm (List.Perm.swap _ _ _)).assign (j := cb.root) (x := x) (by simp)
  obtain ⟨h4, e4, s4⟩ := (s3.perm (List.Perm.swap _ _ _)).delegateArr
  have hp' : [(cb.n + 1, Tree.arr []), (cb.n, x), (cb.root, x)].Perm [(cb.root, x), (cb.n + 1, Tree.arr []), (cb.n, x)] :=
    (List.perm_append_comm (l₁ := [(cb.n + 1, Tree.arr []), (cb.n, x)]) (l₂ := [(cb.root, x)]))
  obtain ⟨h5, e5, s5⟩ := (s4.perm hp').destroy
  refine ⟨h5, _, ?_, s5.cast rfl (by simp only [Tree.kept, Tree.cells]; omega)⟩
  simp [constructAt, hp, exec_cons e1, exec_cons e2, exec_cons e3, e4, finishM, e5, hs, destroyAll]

theorem delete_sim {h : Heap} {n m : Nat} {x : Tree} {us : List Tree} {F : List (Nat × Tree)} {a k : Nat}
    (st : St h m ((n + 1, .arr us) :: (F ++ [(n, x)])) a k) : ∃ h', deleteM h n = .ok h' ∧ St h' m F a (k + Tree.cellsAll us + x.kept) := by
  obtain ⟨h1, e1, s1⟩ := st.destroy
  obtain ⟨h2, e2, s2⟩ := (s1.perm (List.perm_append_comm)).destroy
  refine ⟨h2, by simp only [deleteM, exec_cons e1]; exact e2, s2.cast rfl ?_⟩
  simp only [Tree.kept, Tree.cells, Tree.released]
  omega

theorem check_sim {S : Type} (O : OpM S) {h : Heap} {n m : Nat} {j : JV} {F : List (Nat × Tree)} {a k : Nat} (st : St h m F a k) (hn : (n, j.tree) ∈ F) :
    checkM O h n = if j.ty = .arr then reads j O.parse else .ub .badUnion := by
  obtain ⟨w, l, h1, h2⟩ := st.type hn
  simp only [checkM, h1, Res.ok_bind, holds_ty h2, rd_holds h2]

/-! ### The whole calls -/

theorem cstr_noNul {s : Bytes} (h : 0 ∉ s) : cstr s = s := by
  unfold cstr
  induction s with
  | nil => rfl
  | cons b s ih =>
    simp only [List.mem_cons, not_or] at h
    have hb : b ≠ 0 := fun e => h.1 e.symm
    simp [hb]
    simpa using ih h.2

/-- between two calls; `k` heap objects are lost -/
def Idle (l : Left) (k : Nat) : Prop := ∃ a, St l.h l.n [] a k

theorem Idle.init : Idle Left.init 0 := ⟨0, St.init⟩

theorem Idle.total {l : Left} {k : Nat} (i : Idle l k) : Left.total l = k + l.blocks := by
  obtain ⟨a, st⟩ := i
  have := st.live
  simp only [sumCells, List.map_nil, Tree.cellsAll] at this
  simp only [Left.total, this]
  omega

theorem idle_of {h : Heap} {n b : Nat} {F : List (Nat × Tree)} {a k k' : Nat} (st : St h n F a k) (hk : k + sumCells F = k') : Idle ⟨h, b, n⟩ k' :=
  ⟨a, hk ▸ st.forgetAll⟩

section
variable {S : Type} (O : OpM S) {grow : Nat → Bool} {L : Json.Layout} {s : Bytes} {h : Heap} {cb : Cb} {j : JV} {a k : Nat} {l : Left}

theorem gas_sim (hp : parseAt grow L l.h l.n (cstr s) = .ok (h, cb, true)) (hs : cb.stack = []) (st : St h cb.n [(cb.root, j.tree)] a k) (hj : j.ty = .arr) :
    match reads j O.parse >>= fun x => if x.2 then O.gas x.1 else .ok 1500 with
    | .ok g => ∃ l', gasAt grow L O l s = .ok (l', .value g) ∧ Idle l' (k + 2 * j.tree.kept) ∧ l'.blocks = l.blocks + 1
    | .throw e => ∃ l', gasAt grow L O l s = .ok (l', .thrown e) ∧ Idle l' (k + j.tree.kept + j.tree.cells + 1) ∧ l'.blocks = l.blocks + 1
    | .ub u => gasAt grow L O l s = .ub u
    | .diverge => gasAt grow L O l s = .diverge
    | .exit c => gasAt grow L O l s = .exit c := by
  obtain ⟨h1, a1, e1, s1⟩ := construct_sim hp hs st
  have hc := check_sim O (n := cb.n) (j := j) s1 (by simp)
  rw [if_pos hj] at hc
  simp only [gasAt, e1, Res.ok_bind, hc]
  cases hr : reads j O.parse >>= fun x => if x.2 then O.gas x.1 else .ok 1500 with
  | ok g =>
    obtain ⟨h2, e2, s2⟩ := delete_sim (F := []) (by simpa using s1)
    refine ⟨⟨h2, l.blocks + 1, cb.n + 2⟩, by simp [e2], idle_of s2 ?_, rfl⟩
    simp only [sumCells, List.map_nil, Tree.cellsAll]
    omega
  | throw e =>
    refine ⟨⟨h1, l.blocks + 1, cb.n + 2⟩, rfl, idle_of s1 ?_, rfl⟩
    simp only [sumCells, List.map_cons, List.map_nil, Tree.cellsAll, Tree.cells]
    omega
  | ub u => rfl
  | diverge => rfl
  | exit c => rfl

theorem call_sim (hp : parseAt grow L l.h l.n (cstr s) = .ok (h, cb, true)) (hs : cb.stack = []) (st : St h cb.n [(cb.root, j.tree)] a k) (hj : j.ty = .arr) :
    match reads j O.parse with
    | .ok (_, false) => ∃ l', runAt grow L O l s = .ok (l', .value none) ∧ Idle l' (k + 2 * j.tree.kept) ∧ l'.blocks = l.blocks
    | .ok (st, true) =>
      match (O.run st).2 with
      | .ok false => ∃ l', runAt grow L O l s = .ok (l', .value none) ∧ Idle l' (k + 2 * j.tree.kept + 2 * scCells (O.run st).1) ∧
          l'.blocks = l.blocks + (O.run st).1.length
      | .ok true => ∃ l', runAt grow L O l s = .ok (l', .value (some (cstr (Value.print (.arr ((O.run st).1.map Sc.val)))))) ∧
          Idle l' (k + 2 * j.tree.kept + 2 * scCells (O.run st).1) ∧ l'.blocks = l.blocks + (O.run st).1.length + 1
      | .throw e => ∃ l', runAt grow L O l s = .ok (l', .thrown e) ∧
          Idle l' (k + j.tree.kept + j.tree.cells + 2 * scCells (O.run st).1 + 1) ∧ l'.blocks = l.blocks + (O.run st).1.length + 1
      | .ub u => runAt grow L O l s = .ub u
      | .diverge => runAt grow L O l s = .diverge
      | .exit c => runAt grow L O l s = .exit c
    | .throw e => ∃ l', runAt grow L O l s = .ok (l', .thrown e) ∧ Idle l' (k + j.tree.kept + j.tree.cells + 1) ∧ l'.blocks = l.blocks + 1
    | .ub u => runAt grow L O l s = .ub u
    | .diverge => runAt grow L O l s = .diverge
    | .exit c => runAt grow L O l s = .exit c := by
  obtain ⟨h1, a1, e1, s1⟩ := construct_sim hp hs st
  have hc := check_sim O (n := cb.n) (j := j) s1 (by simp)
  rw [if_pos hj] at hc
  simp only [runAt, e1, Res.ok_bind, hc]
  cases hr : reads j O.parse with
  | ok x =>
    obtain ⟨y, b⟩ := x
    cases b with
    | false =>
      obtain ⟨h2, e2, s2⟩ := delete_sim (F := []) (by simpa using s1)
      refine ⟨⟨h2, l.blocks, cb.n + 2⟩, by simp [e2], idle_of s2 ?_, rfl⟩
      simp only [sumCells, List.map_nil, Tree.cellsAll]
      omega
    | true =>
      obtain ⟨h2, a2, e2, s2⟩ := emplace_sim (O.run y).1 s1
      rw [List.nil_append] at s2
      have hsum : sumCells (boxes (cb.n + 2) (O.run y).1) = scCells (O.run y).1 := by
        simp only [sumCells, boxes_snd, cellsAll_sc]
      simp only [e2, Res.ok_bind]
      cases hrun : (O.run y).2 with
      | ok b =>
        obtain ⟨h3, e3, s3⟩ := delete_sim s2
        rw [cellsAll_sc] at s3
        cases b with
        | false => exact ⟨⟨h3, l.blocks + (O.run y).1.length, _⟩, by simp only [e3, Res.ok_bind], idle_of s3 (by omega), rfl⟩
        | true =>
          exact ⟨⟨h3, l.blocks + (O.run y).1.length + 1, _⟩, by simp only [printRet_sim s2 (List.mem_cons_self), Res.ok_bind, e3], idle_of s3 (by omega), rfl⟩
      | throw e =>
        refine ⟨⟨h2, l.blocks + (O.run y).1.length + 1, _⟩, rfl, idle_of s2 ?_, rfl⟩
        have : Tree.cellsAll (List.map Prod.snd (boxes (cb.n + 2) (O.run y).1 ++ [(cb.n, j.tree)])) = scCells (O.run y).1 + j.tree.cells := by
          rw [List.map_append, boxes_snd, cellsAll_append, cellsAll_sc]
          simp [Tree.cellsAll]
        simp only [sumCells, List.map_cons, Tree.cellsAll, Tree.cells, cellsAll_sc, this]
        omega
      | ub u => rfl
      | diverge => rfl
      | exit c => rfl
  | throw e =>
    refine ⟨⟨h1, l.blocks + 1, cb.n + 2⟩, rfl, idle_of s1 ?_, rfl⟩
    simp only [sumCells, List.map_cons, List.map_nil, Tree.cellsAll, Tree.cells]
    omega
  | ub u => rfl
  | diverge => rfl
  | exit c => rfl

end

/-! ### Calls in one process -/

/-- What a call does does not depend on what happened before. -/
theorem call_any (grow : Nat → Bool) (L : Json.Layout) (c : Call) :
    (∃ o m, ∀ {l k}, Idle l k → ∃ l' k', callAt grow L l c = .ok (l', o) ∧ Idle l' k' ∧ k' + l'.blocks = k + l.blocks + m) ∨
    (∃ r : Res (Left × Out), (∀ x, r ≠ .ok x) ∧ ∀ {l k}, Idle l k → callAt grow L l c = r) := by
  obtain ⟨S, O, g, s⟩ := c
  rcases parse_at grow L (cstr s) with ⟨w, t, r, j, a, d, h1, h2, h3, h4, h5, h6, _, h7⟩ | ⟨s', h1, _, h2⟩
  · by_cases hj : j.ty = .arr
    · cases g with
      | true =>
        have key := fun {l : Left} {a0 k0 : Nat} (st : St l.h l.n [] a0 k0) =>
          (h7 st).elim fun h hx => hx.elim fun cb hy => gas_sim O (s := s) (l := l) hy.1 hy.2.1 hy.2.2 hj
        cases hr : reads j O.parse >>= fun x => if x.2 then O.gas x.1 else .ok 1500 with
        | ok z =>
          refine .inl ⟨.gas (.value z), j.lost + d + 2 * j.tree.kept + 1, fun {l k} ⟨a0, st⟩ => ?_⟩
          have := key st
          rw [hr] at this
          obtain ⟨l', e, i, b⟩ := this
          exact ⟨l', _, by simp [callAt, e], i, by omega⟩
        | throw z =>
          refine .inl ⟨.gas (.thrown z), j.lost + d + j.tree.kept + j.tree.cells + 1 + 1, fun {l k} ⟨a0, st⟩ => ?_⟩
          have := key st
          rw [hr] at this
          obtain ⟨l', e, i, b⟩ := this
          exact ⟨l', _, by simp [callAt, e], i, by omega⟩
        | ub u =>
          refine .inr ⟨.ub u, by simp, fun {l k} ⟨a0, st⟩ => ?_⟩
          have := key st
          rw [hr] at this
          simp only at this
          simp [callAt, this]
        | diverge =>
          refine .inr ⟨.diverge, by simp, fun {l k} ⟨a0, st⟩ => ?_⟩
          have := key st
          rw [hr] at this
          simp only at this
          simp [callAt, this]
        | exit u =>
          refine .inr ⟨.exit u, by simp, fun {l k} ⟨a0, st⟩ => ?_⟩
          have := key st
          rw [hr] at this
          simp only at this
          simp [callAt, this]
      | false =>
        have key := fun {l : Left} {a0 k0 : Nat} (st : St l.h l.n [] a0 k0) =>
          (h7 st).elim fun h hx => hx.elim fun cb hy => call_sim O (s := s) (l := l) hy.1 hy.2.1 hy.2.2 hj
        cases hr : reads j O.parse with
        | ok z =>
          obtain ⟨y, b⟩ := z
          cases b with
          | false =>
            refine .inl ⟨.text (.value none), j.lost + d + 2 * j.tree.kept, fun {l k} ⟨a0, st⟩ => ?_⟩
            have := key st
            rw [hr] at this
            obtain ⟨l', e, i, b⟩ := this
            exact ⟨l', _, by simp [callAt, e], i, by omega⟩
          | true =>
            cases hrun : (O.run y).2 with
            | ok b =>
              cases b with
              | false =>
                refine .inl ⟨.text (.value none), j.lost + d + 2 * j.tree.kept + 2 * scCells (O.run y).1 + (O.run y).1.length, fun {l k} ⟨a0, st⟩ => ?_⟩
                have := key st
                rw [hr] at this
                simp only [hrun] at this
                obtain ⟨l', e, i, b⟩ := this
                exact ⟨l', _, by simp [callAt, e], i, by omega⟩
              | true =>
                refine .inl ⟨.text (.value (some (cstr (Value.print (.arr ((O.run y).1.map Sc.val)))))),
                  j.lost + d + 2 * j.tree.kept + 2 * scCells (O.run y).1 + (O.run y).1.length + 1, fun {l k} ⟨a0, st⟩ => ?_⟩
                have := key st
                rw [hr] at this
                simp only [hrun] at this
                obtain ⟨l', e, i, b⟩ := this
                exact ⟨l', _, by simp [callAt, e], i, by omega⟩
            | throw z =>
              refine .inl ⟨.text (.thrown z), j.lost + d + j.tree.kept + j.tree.cells + 2 * scCells (O.run y).1 + 1 + (O.run y).1.length + 1, fun {l k} ⟨a0, st⟩ => ?_⟩
              have := key st
              rw [hr] at this
              simp only [hrun] at this
              obtain ⟨l', e, i, b⟩ := this
              exact ⟨l', _, by simp [callAt, e], i, by omega⟩
            | ub u =>
              refine .inr ⟨.ub u, by simp, fun {l k} ⟨a0, st⟩ => ?_⟩
              have := key st
              rw [hr] at this
              simp only [hrun] at this
              simp [callAt, this]
            | diverge =>
              refine .inr ⟨.diverge, by simp, fun {l k} ⟨a0, st⟩ => ?_⟩
              have := key st
              rw [hr] at this
              simp only [hrun] at this
              simp [callAt, this]
            | exit u =>
              refine .inr ⟨.exit u, by simp, fun {l k} ⟨a0, st⟩ => ?_⟩
              have := key st
              rw [hr] at this
              simp only [hrun] at this
              simp [callAt, this]
        | throw z =>
          refine .inl ⟨.text (.thrown z), j.lost + d + j.tree.kept + j.tree.cells + 1 + 1, fun {l k} ⟨a0, st⟩ => ?_⟩
          have := key st
          rw [hr] at this
          obtain ⟨l', e, i, b⟩ := this
          exact ⟨l', _, by simp [callAt, e], i, by omega⟩
        | ub u =>
          refine .inr ⟨.ub u, by simp, fun {l k} ⟨a0, st⟩ => ?_⟩
          have := key st
          rw [hr] at this
          simp only at this
          simp [callAt, this]
        | diverge =>
          refine .inr ⟨.diverge, by simp, fun {l k} ⟨a0, st⟩ => ?_⟩
          have := key st
          rw [hr] at this
          simp only at this
          simp [callAt, this]
        | exit u =>
          refine .inr ⟨.exit u, by simp, fun {l k} ⟨a0, st⟩ => ?_⟩
          have := key st
          rw [hr] at this
          simp only at this
          simp [callAt, this]
    · refine .inr ⟨.ub .badUnion, by simp, fun {l k} ⟨a0, st⟩ => ?_⟩
      obtain ⟨h, cb, e, hs, st1⟩ := h7 st
      obtain ⟨h1, a1, e1, s1⟩ := construct_sim e hs st1
      have hc := check_sim O (n := cb.n) (j := j) s1 (by simp)
      rw [if_neg hj] at hc
      cases g <;> simp [callAt, runAt, gasAt, e1, hc]
  · refine .inr ⟨.exit 87, by simp, fun {l k} ⟨a0, st⟩ => ?_⟩
    obtain ⟨h, cb, e, _⟩ := h2 st
    cases g <;> simp [callAt, runAt, gasAt, constructAt, e]

end Eni.Owner
