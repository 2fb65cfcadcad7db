import Verif.Proofs.JsonOwner
/-!
# Programs on JSON values: simulation of the trees by the heap
-/
set_option linter.unusedSimpArgs false
set_option linter.unusedVariables false
namespace Eni.Owner
open Spec

/-- The heap holds the variables `t`; no cell belongs to two values. -/
def Inv (h : Heap) (t : Tree) : Prop := ∃ l, Holds h frame t l ∧ l.Nodup ∧ (∀ q ∈ l, q < h.next) ∧ h.Fresh

theorem Inv.init : Inv Heap.init (.arr []) := by
  refine ⟨[0], .arr (by simp [Heap.init]) .nil, by simp, by simp [Heap.init], ?_⟩
  intro q hq
  simp [Heap.init] at hq ⊢
  omega

theorem declare_spec {h : Heap} {t : Tree} {l : List Nat} {w : Val} {x : Tree} {lw : List Nat} (H : Holds h frame t l) (nd : l.Nodup)
    (hlt : ∀ q ∈ l, q < h.next) (hf : h.Fresh) (Hw : Holds h w x lw) (ndw : lw.Nodup) (hltw : ∀ q ∈ lw, q < h.next)
    (hdis : ∀ q ∈ lw, q ∉ l) : ∃ h', declare h w = .ok h' ∧ Inv h' (t.declare x) := by
  cases H with
  | @arr _ vs ts l hc hall =>
    have h0 := (List.nodup_cons.mp nd)
    refine ⟨h.put 0 (.arr (vs ++ [w])), by simp [declare, hc], 0 :: (l ++ lw), ?_, ?_, ?_, hf.put (hlt 0 (by simp)) _⟩
    · refine .arr (put_cell _ _ _) (holdsAll_append ?_ (holdsAll_one ?_))
      · exact holdsAll_mono hall fun q hq => put_other _ _ (fun e => h0.1 (e ▸ hq))
      · exact holds_mono Hw fun q hq => put_other _ _ (fun e => hdis q hq (by simp [e]))
    · refine List.nodup_cons.mpr ⟨?_, List.nodup_append.mpr ⟨h0.2, ndw, ?_⟩⟩
      · simp only [List.mem_append, not_or]
        exact ⟨h0.1, fun hq => hdis 0 hq (by simp)⟩
      · intro a ha b hb e
        exact hdis b hb (by simp [← e, ha])
    · intro q hq
      rw [put_next]
      simp only [List.mem_cons, List.mem_append] at hq
      rcases hq with rfl | hq | hq
      · exact hlt 0 (by simp)
      · exact hlt q (by simp [hq])
      · exact hltw q hq

/-- Changing cells below a place without touching the value stored there. -/
theorem focus_same {h : Heap} {c : Cell} {loc : Loc} {w v : Val} {t : Tree} {path : Path} {lr : List Nat} (hc : h.cell loc.addr = some c)
    (hr : readAt h loc = .ok w) (hi : loc.idx < c.kids.length)
    (back : ∀ (h' : Heap) w' u' lu', h'.cell loc.addr = some (c.withKids (c.kids.set loc.idx w')) → (∀ q ∈ lr, q ≠ loc.addr → h'.cell q = h.cell q) →
        Holds h' w' u' lu' → ∃ l', Holds h' v (t.set u' path) l' ∧ l'.Perm (lu' ++ lr))
    (hm : loc.addr ∈ lr) {h' : Heap} {u' : Tree} {lu' : List Nat} (hs : ∀ q ∈ lr, h'.cell q = h.cell q) (H : Holds h' w u' lu') :
    ∃ l', Holds h' v (t.set u' path) l' ∧ l'.Perm (lu' ++ lr) := by
  refine back h' w u' lu' ?_ (fun q hq _ => hs q hq) H
  rw [hs _ hm, hc]
  have : c.kids.set loc.idx w = c.kids := by
    simp only [readAt, hc, List.getElem?_eq_getElem hi, Res.ok.injEq] at hr
    rw [← hr]
    exact List.set_getElem_self _
  rw [this]
  cases c <;> rfl

/-- The place `dst` lies in a cell that does not belong to the value at `src`, unless `dst` is a proper part of `src`. -/
theorem place_sep {h : Heap} {v : Val} {t : Tree} {l : List Nat} (H : Holds h v t l) (nd : l.Nodup) {dst src : Path} {d : Loc} {w : Val}
    {x : Tree} {lx : List Nat} (hd : dst ≠ []) (hl : locate h v dst = .ok d) (hs : At h v src w) (Hw : Holds h w x lx)
    (hn : ¬ (src <+: dst ∧ src ≠ dst)) : d.addr ∉ lx := by
  rcases List.eq_nil_or_concat dst with rfl | ⟨b, st, rfl⟩
  · exact absurd rfl hd
  · rw [List.concat_eq_append] at *
    obtain ⟨vb, h1, h2⟩ := locate_snoc.mp hl
    obtain ⟨tb, lb, _, h3, _⟩ := at_sub b H h1
    obtain ⟨hpos, hbits⟩ := stepInto_pos h3 h2
    obtain ⟨p, c, l', rfl, hb', _⟩ := holds_pos h3 hpos
    rw [hbits] at hb'
    cases hb'
    refine separate src b H nd hs Hw h1 ⟨tb, l', h3⟩ ?_
    intro hp
    refine hn ⟨hp.trans (List.prefix_append _ _), ?_⟩
    intro e
    have := hp.length_le
    rw [e, List.length_append, List.length_singleton] at this
    omega

/-- `src` is stored in the cell `p` of `dst` only if it is a direct part of `dst`. -/
theorem place_in {h : Heap} {v : Val} {t : Tree} {l : List Nat} (H : Holds h v t l) (nd : l.Nodup) {dst src : Path} {sl : Loc} {w : Val}
    {p : Nat} {x : Tree} {lx : List Nat} (hs : src ≠ []) (hl : locate h v src = .ok sl) (hd : At h v dst w) (Hw : Holds h w x (p :: lx))
    (he : sl.addr = p) : ∃ s, src = dst ++ [s] ∧ x.pos s = some sl.idx := by
  rcases List.eq_nil_or_concat src with rfl | ⟨b, st, rfl⟩
  · exact absurd rfl hs
  · rw [List.concat_eq_append] at *
    obtain ⟨vb, h1, h2⟩ := locate_snoc.mp hl
    obtain ⟨tb, lb, _, h3, _⟩ := at_sub b H h1
    obtain ⟨hpos, hbits⟩ := stepInto_pos h3 h2
    obtain ⟨p', c, l', rfl, hb', _⟩ := holds_pos h3 hpos
    rw [hbits] at hb'
    cases hb'
    rw [he] at h3
    have hbd : b = dst := at_inj H nd h1 hd ⟨tb, l', h3⟩ ⟨x, lx, Hw⟩
    subst hbd
    refine ⟨st, rfl, ?_⟩
    have : vb = w := by
      have key : ∀ (ps : Path) (v a b : Val), At h v ps a → At h v ps b → a = b := by
        intro ps
        induction ps with
        | nil => intro v a b h1 h2; cases h1; cases h2; rfl
        | cons s ps ih =>
          rintro v a b ⟨l1, u1, e1, e2, e3⟩ ⟨l2, u2, f1, f2, f3⟩
          rw [e1] at f1
          cases f1
          rw [e2] at f2
          cases f2
          exact ih _ _ _ e3 f3
      exact key _ _ _ _ h1 hd
    subst this
    obtain ⟨rfl, _⟩ := holds_unique h3 Hw
    exact hpos

theorem delegate_sim {h : Heap} {t : Tree} (I : Inv h t) {dst : Path} {ty : Ty} {c : Cell} {x : Tree}
    (hx : ∀ (h : Heap) p, h.cell p = some c → Holds h ⟨ty, .ptr p⟩ x [p]) {t' : Tree} {r : Rep}
    (ht : pstep.delegated t dst x = some (t', r)) : ∃ h', delegate h dst ty c = .ok (h', r) ∧ Inv h' t' := by
  obtain ⟨l, H, nd, hlt, hf⟩ := I
  unfold pstep.delegated at ht
  by_cases hd : dst = []
  · simp [hd] at ht
  simp only [hd, if_false, bind, Option.bind_eq_some_iff] at ht
  obtain ⟨u, hu, ht⟩ := ht
  have H1 : Holds (h.alloc c).1 frame t l := holds_mono H fun q hq => (Ext.alloc h c).2 q (hlt q hq)
  have hlt1 : ∀ q ∈ l, q < (h.alloc c).1.next := fun q hq => lt_of_lt_of_le (hlt q hq) (Ext.alloc h c).1
  have hf1 := hf.alloc c
  have hnew : (h.alloc c).1.cell h.next = some c := alloc_cell h c
  have hp : (h.alloc c).2 = h.next := rfl
  have hnl : h.next ∉ l := fun hq => absurd (hlt _ hq) (by omega)
  have hn1 : (h.alloc c).1.next = h.next + 1 := rfl
  obtain ⟨loc, w, lu, lr, cc, h1, h2, h2', h3, h4, h5, h6, h7, hwk, hww, h8⟩ := focus dst H1 nd hd hu
  have hlu : ∀ q, q ∈ lu ∨ q ∈ lr → q ∈ l := fun q hq => h4.mem_iff.mpr (by simpa using hq)
  have hdel : delegate h dst ty c = (if w.ty = .undef then do
      let h ← writeAt (h.alloc c).1 loc ⟨ty, .ptr h.next⟩
      .ok (h, .done) else .ok ((h.alloc c).1, .threw)) := by
    simp only [delegate, hp]
    show (locate (h.alloc c).1 frame dst >>= _) = _
    rw [h1, Res.ok_bind, h2, Res.ok_bind]
  cases h3 with
  | undef =>
    simp only [Option.some.injEq, Prod.mk.injEq] at ht
    obtain ⟨rfl, rfl⟩ := ht
    rw [hdel]
    simp only [if_true, writeAt_ok h6 h7, Res.ok_bind]
    refine ⟨_, rfl, ?_⟩
    have hne : loc.addr ≠ h.next := fun e => hnl (e ▸ hlu _ (.inr h5))
    obtain ⟨l', k1, k2⟩ := h8 ((h.alloc c).1.put loc.addr (cc.withKids (cc.kids.set loc.idx ⟨ty, .ptr h.next⟩))) ⟨ty, .ptr h.next⟩ x [h.next] (put_cell _ _ _)
      (fun q _ hq => put_other _ _ hq) (hx _ _ (by rw [put_other _ _ (Ne.symm hne), hnew]))
    refine ⟨l', k1, k2.nodup_iff.mpr ?_, ?_, hf1.put (hlt1 _ (hlu _ (.inr h5))) _⟩
    · have := h4.nodup_iff.mp nd
      simp only [List.nil_append] at this
      simp only [List.singleton_append, List.nodup_cons]
      exact ⟨fun hq => hnl (hlu _ (.inr hq)), this⟩
    · intro q hq
      rw [put_next]
      rcases List.mem_append.mp (k2.mem_iff.mp hq) with hq | hq
      · simp only [List.mem_singleton] at hq; omega
      · exact hlt1 q (hlu _ (.inr hq))
  | _ =>
    simp only [Option.some.injEq, Prod.mk.injEq] at ht
    obtain ⟨rfl, rfl⟩ := ht
    rw [hdel]
    exact ⟨_, rfl, l, H1, nd, hlt1, hf1⟩

theorem new_sim {h : Heap} {t : Tree} (I : Inv h t) (c : Cell) (ty : Ty) (x : Tree)
    (hx : ∀ (h : Heap) p, h.cell p = some c → Holds h ⟨ty, .ptr p⟩ x [p]) :
    ∃ h', declare (h.alloc c).1 ⟨ty, .ptr h.next⟩ = .ok h' ∧ Inv h' (t.declare x) := by
  obtain ⟨l, H, nd, hlt, hf⟩ := I
  have H1 : Holds (h.alloc c).1 frame t l := holds_mono H fun q hq => (Ext.alloc h c).2 q (hlt q hq)
  refine declare_spec H1 nd (fun q hq => lt_of_lt_of_le (hlt q hq) (Ext.alloc h c).1) (hf.alloc c) (hx _ _ (alloc_cell h c)) (by simp) ?_ ?_
  · intro q hq
    simp only [List.mem_singleton] at hq
    subst hq
    simp [Heap.alloc]
  · intro q hq hq'
    simp only [List.mem_singleton] at hq
    have := hlt q hq'
    omega

theorem plain_sim {h : Heap} {t : Tree} (I : Inv h t) (w : Val) (x : Tree) (hx : Holds h w x []) :
    ∃ h', declare h w = .ok h' ∧ Inv h' (t.declare x) := by
  obtain ⟨l, H, nd, hlt, hf⟩ := I
  exact declare_spec H nd hlt hf hx (by simp) (by simp) (by simp)

/-- Every operation permitted by `pstep` does what `pstep` says. -/
theorem step_sim {h : Heap} {t : Tree} (I : Inv h t) {op : Op} {t' : Tree} {r : Rep} (ht : pstep t op = some (t', r)) :
    ∃ h', step h op = .ok (h', r) ∧ Inv h' t' := by
  have hempty : ∀ (h : Heap) (p : Nat), h.cell p = some (.arr []) → Holds h ⟨.arr, .ptr p⟩ (.arr []) [p] := fun h p hc => .arr hc .nil
  have hemptyo : ∀ (h : Heap) (p : Nat), h.cell p = some (.obj [] []) → Holds h ⟨.obj, .ptr p⟩ (.obj [] []) [p] := fun h p hc => .obj hc rfl .nil
  cases op with
  | undef =>
    simp only [pstep, Option.some.injEq, Prod.mk.injEq] at ht
    obtain ⟨rfl, rfl⟩ := ht
    obtain ⟨h', h1, h2⟩ := plain_sim I ⟨.undef, .null⟩ .undef .undef
    exact ⟨h', by simp [step, h1], h2⟩
  | bool b =>
    simp only [pstep, Option.some.injEq, Prod.mk.injEq] at ht
    obtain ⟨rfl, rfl⟩ := ht
    obtain ⟨h', h1, h2⟩ := plain_sim I ⟨.bool, .bool b⟩ (.bool b) .bool
    exact ⟨h', by simp [step, h1], h2⟩
  | int z =>
    simp only [pstep, Option.some.injEq, Prod.mk.injEq] at ht
    obtain ⟨rfl, rfl⟩ := ht
    obtain ⟨h', h1, h2⟩ := new_sim I (.int z) .int (.int z) (fun h p hc => .int hc)
    refine ⟨h', ?_, h2⟩
    show (declare (h.alloc (.int z)).1 ⟨.int, .ptr h.next⟩ >>= _) = _
    rw [h1]; rfl
  | str s =>
    simp only [pstep, Option.some.injEq, Prod.mk.injEq] at ht
    obtain ⟨rfl, rfl⟩ := ht
    obtain ⟨h', h1, h2⟩ := new_sim I (.str s) .str (.str s) (fun h p hc => .str hc)
    refine ⟨h', ?_, h2⟩
    show (declare (h.alloc (.str s)).1 ⟨.str, .ptr h.next⟩ >>= _) = _
    rw [h1]; rfl
  | array =>
    simp only [pstep, Option.some.injEq, Prod.mk.injEq] at ht
    obtain ⟨rfl, rfl⟩ := ht
    obtain ⟨h', h1, h2⟩ := new_sim I (.arr []) .arr (.arr []) hempty
    refine ⟨h', ?_, h2⟩
    show (declare (h.alloc (.arr [])).1 ⟨.arr, .ptr h.next⟩ >>= _) = _
    rw [h1]; rfl
  | object =>
    simp only [pstep, Option.some.injEq, Prod.mk.injEq] at ht
    obtain ⟨rfl, rfl⟩ := ht
    obtain ⟨h', h1, h2⟩ := new_sim I (.obj [] []) .obj (.obj [] []) hemptyo
    refine ⟨h', ?_, h2⟩
    show (declare (h.alloc (.obj [] [])).1 ⟨.obj, .ptr h.next⟩ >>= _) = _
    rw [h1]; rfl
  | copy src =>
    obtain ⟨l, H, nd, hlt, hf⟩ := I
    simp only [pstep] at ht
    by_cases hs : src = []
    · simp [hs] at ht
    simp only [hs, if_false, bind, Option.bind_eq_some_iff, Option.some.injEq, Prod.mk.injEq] at ht
    obtain ⟨x, hx, rfl, rfl⟩ := ht
    obtain ⟨loc, w, lu, lr, cc, h1, h2, h2', h3, h4, _⟩ := focus src H nd hs hx
    have hsub : ∀ q ∈ lu, q < h.next := fun q hq => hlt q (h4.mem_iff.mpr (by simp [hq]))
    have ndu := (List.nodup_append.mp (h4.nodup_iff.mp nd)).1
    obtain ⟨h', w', l', e1, e2, e3, e4, e5, e6, _⟩ := copy_spec h.fuel h w x lu
      (by have := length_le_of_lt ndu hsub; simp [Heap.fuel]; omega) h3 hsub
    obtain ⟨h'', f1, f2⟩ := declare_spec (holds_mono H fun q hq => e3.2 q (hlt q hq)) nd
      (fun q hq => lt_of_lt_of_le (hlt q hq) e3.1) (e6 hf) e2 e4 (fun q hq => (e5 q hq).2)
      (fun q hq hq' => by have := e5 q hq; have := hlt q hq'; omega)
    exact ⟨h'', by simp [step, h1, h2, e1, f1], f2⟩
  | move src =>
    obtain ⟨l, H, nd, hlt, hf⟩ := I
    simp only [pstep] at ht
    by_cases hs : src = []
    · simp [hs] at ht
    simp only [hs, if_false, bind, Option.bind_eq_some_iff, Option.some.injEq, Prod.mk.injEq] at ht
    obtain ⟨x, hx, rfl, rfl⟩ := ht
    obtain ⟨loc, w, lu, lr, cc, h1, h2, h2', h3, h4, h5, h6, h7, hwk, hww, h8⟩ := focus src H nd hs hx
    obtain ⟨n1, n2, n3⟩ := List.nodup_append.mp (h4.nodup_iff.mp nd)
    have hlu : ∀ q, q ∈ lu ∨ q ∈ lr → q ∈ l := fun q hq => h4.mem_iff.mpr (by simpa using hq)
    have hnot : loc.addr ∉ lu := fun hq => n3 _ hq _ h5 rfl
    obtain ⟨l', k1, k2⟩ := h8 (h.put loc.addr (cc.withKids (cc.kids.set loc.idx ⟨.undef, w.bits⟩))) ⟨.undef, w.bits⟩ .undef [] (put_cell _ _ _)
      (fun q _ hq => put_other _ _ hq) .undef
    simp only [List.nil_append] at k2
    obtain ⟨h'', f1, f2⟩ := declare_spec k1 (k2.nodup_iff.mpr n2) (fun q hq => hlt q (hlu q (.inr (k2.mem_iff.mp hq))))
      (hf.put (hlt _ (hlu _ (.inr h5))) _) (holds_mono h3 fun q hq => put_other _ _ (fun e => hnot (e ▸ hq))) n1
      (fun q hq => hlt q (hlu q (.inl hq))) (fun q hq hq' => n3 q hq q (k2.mem_iff.mp hq') rfl)
    exact ⟨h'', by simp [step, h1, h2, writeAt_ok h6 h7, f1], f2⟩
  | assign dst src =>
    obtain ⟨l, H, nd, hlt, hf⟩ := I
    simp only [pstep] at ht
    by_cases hn : dst = [] ∨ src = []
    · simp [hn] at ht
    rw [if_neg hn] at ht
    simp only [not_or] at hn
    simp only [bind, Option.bind_eq_some_iff] at ht
    obtain ⟨y, hy, x, hx, ht⟩ := ht
    split at ht
    · cases ht
    rename_i hpre
    simp only [Option.some.injEq, Prod.mk.injEq] at ht
    obtain ⟨rfl, rfl⟩ := ht
    obtain ⟨loc, w, lu, lr, cc, h1, h2, h2', h3, h4, _⟩ := focus src H nd hn.2 hx
    obtain ⟨d, wd, ld, lr', cd, g1, g2, g2', g3, g4, g5, g6, g7, hwk, hww, g8⟩ := focus dst H nd hn.1 hy
    have hsub : ∀ q ∈ lu, q < h.next := fun q hq => hlt q (h4.mem_iff.mpr (by simp [hq]))
    have hsub' : ∀ q ∈ lr', q < h.next := fun q hq => hlt q (g4.mem_iff.mpr (by simp [hq]))
    have hdl : d.addr < h.next := hsub' _ g5
    obtain ⟨h', w', lw, e1, e2, e3, e4, e5, e6, e7, e8⟩ := assignVal_spec hf g6 g7 hwk hww hdl h3
      (List.nodup_append.mp (h4.nodup_iff.mp nd)).1 hsub (place_sep H nd hn.1 g1 h2' h3 hpre)
    obtain ⟨l', k1, k2⟩ := g8 h' w' x lw e2 (fun q hq hne => e4 q (hsub' q hq) hne) e5
    refine ⟨h', by simp [step, h1, h2, g1, e1], l', k1, k2.nodup_iff.mpr ?_, ?_, e8⟩
    · refine List.nodup_append.mpr ⟨e6, (List.nodup_append.mp (g4.nodup_iff.mp nd)).2.1, ?_⟩
      intro a ha b hb e
      have := e7 a ha
      have := hsub' b hb
      omega
    · intro q hq
      rcases List.mem_append.mp (k2.mem_iff.mp hq) with hq | hq
      · exact (e7 q hq).2
      · exact lt_of_lt_of_le (hsub' q hq) e3
  | destroy i =>
    obtain ⟨l, H, nd, hlt, hf⟩ := I
    simp only [pstep, bind, Option.bind_eq_some_iff, Option.some.injEq, Prod.mk.injEq] at ht
    obtain ⟨y, hy, rfl, rfl⟩ := ht
    obtain ⟨d, wd, ld, lr, cd, g1, g2, g2', g3, g4, g5, g6, g7, hwk, hww, g8⟩ := focus [.elem i] H nd (by simp) hy
    obtain ⟨n1, n2, n3⟩ := List.nodup_append.mp (g4.nodup_iff.mp nd)
    have hsub : ∀ q ∈ ld, q < h.next := fun q hq => hlt q (g4.mem_iff.mpr (by simp [hq]))
    have hsub' : ∀ q ∈ lr, q < h.next := fun q hq => hlt q (g4.mem_iff.mpr (by simp [hq]))
    obtain ⟨h', e1, e2, e3, e4⟩ := destroy_spec h.fuel h wd y ld (by have := length_le_of_lt n1 hsub; simp [Heap.fuel]; omega) g3 n1
    have hkeep : ∀ q ∈ lr, h'.cell q = h.cell q := fun q hq => e3 q (fun hq' => n3 q hq' q hq rfl)
    have hc' : h'.cell d.addr = some cd := by rw [hkeep _ g5, g6]
    obtain ⟨l', k1, k2⟩ := g8 (h'.put d.addr (cd.withKids (cd.kids.set d.idx ⟨.undef, .null⟩))) ⟨.undef, .null⟩ .undef [] (put_cell _ _ _)
      (fun q hq hne => by rw [put_other _ _ hne, hkeep q hq]) .undef
    simp only [List.nil_append] at k2
    have hf' : h'.Fresh := by
      intro q hq
      rcases e4 q with h0 | h0
      · rw [h0]; exact hf q (by omega)
      · exact h0
    refine ⟨_, by simp only [step, g1, g2, e1, Res.ok_bind, writeAt_ok hc' g7], l', k1, k2.nodup_iff.mpr n2, ?_, hf'.put (by rw [e2]; exact hsub' _ g5) _⟩
    intro q hq
    rw [put_next, e2]
    exact hsub' q (k2.mem_iff.mp hq)
  | pushBack dst src =>
    obtain ⟨l, H, nd, hlt, hf⟩ := I
    simp only [pstep] at ht
    by_cases hn : dst = [] ∨ src = []
    · simp [hn] at ht
    rw [if_neg hn] at ht
    simp only [not_or] at hn
    simp only [bind, Option.bind_eq_some_iff] at ht
    obtain ⟨y, hy, x, hx, ht⟩ := ht
    obtain ⟨sl, w, lu, lrs, cc, h1, h2, h2', h3, h4, _⟩ := focus src H nd hn.2 hx
    obtain ⟨d, wd, ld, lr, cd, g1, g2, g2', g3, g4, g5, g6, g7, hwk, hww, g8⟩ := focus dst H nd hn.1 hy
    have g3' := g3
    cases g3 with
    | @arr p vs ts lk hc hall =>
      simp only at ht
      split at ht
      · cases ht
      rename_i hpre
      simp only [not_or] at hpre
      simp only [Option.some.injEq, Prod.mk.injEq] at ht
      obtain ⟨rfl, rfl⟩ := ht
      obtain ⟨n1, n2, n3⟩ := List.nodup_append.mp (g4.nodup_iff.mp nd)
      have hsub : ∀ q ∈ lu, q < h.next := fun q hq => hlt q (h4.mem_iff.mpr (by simp [hq]))
      have hsubd : ∀ q ∈ p :: lk, q < h.next := fun q hq => hlt q (g4.mem_iff.mpr (by simp only [List.mem_append]; exact .inl hq))
      have hsub' : ∀ q ∈ lr, q < h.next := fun q hq => hlt q (g4.mem_iff.mpr (by simp [hq]))
      have hp : p < h.next := hsubd p (by simp)
      have hsep : p ∉ lu := separate src dst H nd h2' h3 g2' ⟨_, _, g3'⟩ hpre.1
      have hsl : sl.addr ≠ p := by
        intro e
        obtain ⟨s, hs1, hs2⟩ := place_in H nd hn.2 h1 g2' g3' e
        cases s with
        | mem k => simp [Tree.pos] at hs2
        | elem i =>
          simp only [Tree.pos, Option.ite_none_right_eq_some] at hs2
          exact hpre.2 ⟨i, hs2.1, hs1⟩
      have hlen := holdsAll_length hall
      obtain ⟨h', w', lw, e1, e2, e3, e4, e5, e6, e7, e8⟩ := assignVal_spec (h := h.put p (.arr (vs ++ [⟨.undef, .raw⟩]))) (d := ⟨p, vs.length⟩)
        (c := .arr (vs ++ [⟨.undef, .raw⟩])) (hf.put hp _) (put_cell _ _ _) (by simp [Cell.kids]) (fun _ => rfl) (fun _ _ => rfl) hp
        (holds_mono h3 fun q hq => put_other _ _ (fun e => hsep (e ▸ hq)))
        (List.nodup_append.mp (h4.nodup_iff.mp nd)).1 hsub hsep
      rw [put_next] at e3 e4 e7
      have hcell : h'.cell p = some (.arr (vs ++ [w'])) := by
        rw [e2]
        simp [Cell.kids, Cell.withKids, List.set_append]
      have hother : ∀ q, q < h.next → q ≠ p → h'.cell q = h.cell q := fun q hq hne => by rw [e4 q hq hne, put_other _ _ hne]
      have hpk : p ∉ lk := (List.nodup_cons.mp n1).1
      have Hnew : Holds h' ⟨.arr, .ptr p⟩ (.arr (ts ++ [x])) (p :: (lk ++ lw)) :=
        .arr hcell (holdsAll_append (holdsAll_mono hall fun q hq => hother q (hsubd q (by simp [hq])) (fun e => hpk (e ▸ hq))) (holdsAll_one e5))
      obtain ⟨l', k1, k2⟩ := focus_same g6 g2 g7 g8 g5 (fun q hq => hother q (hsub' q hq) (fun e => n3 p (by simp) q hq e.symm)) Hnew
      refine ⟨h', by simp only [step, h1, h2, g1, g2, Res.ok_bind, if_true, Heap.deref, hc, if_neg hsl, e1], l', k1, k2.nodup_iff.mpr ?_, ?_, e8⟩
      · refine List.nodup_append.mpr ⟨List.nodup_cons.mpr ⟨?_, List.nodup_append.mpr ⟨(List.nodup_cons.mp n1).2, e6, ?_⟩⟩, n2, ?_⟩
        · simp only [List.mem_append, not_or]
          exact ⟨hpk, fun hq => by have := e7 p hq; omega⟩
        · intro a ha b hb e
          have := e7 b hb
          have := hsubd a (by simp [ha])
          omega
        · intro a ha b hb e
          simp only [List.mem_cons, List.mem_append] at ha
          rcases ha with ha | ha | ha
          · exact n3 p (by simp) b hb (by omega)
          · exact n3 a (by simp [ha]) b hb e
          · have := e7 a ha
            have := hsub' b hb
            omega
      · intro q hq
        have := k2.mem_iff.mp hq
        simp only [List.mem_append, List.mem_cons] at this
        rcases this with (rfl | hq | hq) | hq
        · omega
        · have := hsubd q (by simp [hq]); omega
        · exact (e7 q hq).2
        · have := hsub' q hq; omega
    | _ => simp at ht
  | popBack dst =>
    obtain ⟨l, H, nd, hlt, hf⟩ := I
    simp only [pstep] at ht
    by_cases hn : dst = []
    · simp [hn] at ht
    rw [if_neg hn] at ht
    simp only [bind, Option.bind_eq_some_iff] at ht
    obtain ⟨y, hy, ht⟩ := ht
    obtain ⟨d, wd, ld, lr, cd, g1, g2, g2', g3, g4, g5, g6, g7, hwk, hww, g8⟩ := focus dst H nd hn hy
    cases g3 with
    | @arr p vs ts lk hc hall =>
      simp only at ht
      rcases List.eq_nil_or_concat ts with rfl | ⟨ts0, x, rfl⟩
      · simp at ht
      rw [List.concat_eq_append] at *
      simp only [List.getLast?_append, List.getLast?_singleton, Option.or, Option.some_or, List.dropLast_concat, Option.some.injEq, Prod.mk.injEq] at ht
      obtain ⟨rfl, rfl⟩ := ht
      have hlen := holdsAll_length hall
      obtain ⟨vs0, e, rfl⟩ : ∃ vs0 e, vs = vs0 ++ [e] := by
        rcases List.eq_nil_or_concat vs with rfl | ⟨vs0, e, he⟩
        · simp at hlen
        · exact ⟨vs0, e, by simpa using he⟩
      obtain ⟨n1, n2, n3⟩ := List.nodup_append.mp (g4.nodup_iff.mp nd)
      have hsubd : ∀ q ∈ p :: lk, q < h.next := fun q hq => hlt q (g4.mem_iff.mpr (by simp only [List.mem_append]; exact .inl hq))
      have hsub' : ∀ q ∈ lr, q < h.next := fun q hq => hlt q (g4.mem_iff.mpr (by simp [hq]))
      have hp : p < h.next := hsubd p (by simp)
      have hpk : p ∉ lk := (List.nodup_cons.mp n1).1
      obtain ⟨v, l1, l2, a1, a2, a3, _, a5, _⟩ := holdsAll_focus hall (i := ts0.length) (t := x) (by simp)
      have hl0 : vs0.length = ts0.length := by simpa using hlen
      have hv : v = e := by
        rw [← hl0] at a1
        simpa using a1.symm
      subst hv
      have hnd12 := a3.nodup_iff.mp (List.nodup_cons.mp n1).2
      have hl1 : ∀ q ∈ l1, q ∈ lk := fun q hq => a3.mem_iff.mpr (by simp [hq])
      have hl2 : ∀ q ∈ l2, q ∈ lk := fun q hq => a3.mem_iff.mpr (by simp [hq])
      have hput : ∀ q ∈ lk, (h.put p (.arr vs0)).cell q = h.cell q := fun q hq => put_other _ _ (fun e => hpk (e ▸ hq))
      have A2 : Holds (h.put p (.arr vs0)) v x l1 := holds_mono a2 fun q hq => hput q (hl1 q hq)
      obtain ⟨lk', A5, A5p⟩ := a5 (h.put p (.arr vs0)) (fun q hq => hput q (hl2 q hq))
      have hev : (vs0 ++ [v]).eraseIdx ts0.length = vs0 := by rw [← hl0, List.eraseIdx_append_of_length_le (le_refl _)]; simp
      have het : (ts0 ++ [x]).eraseIdx ts0.length = ts0 := by rw [List.eraseIdx_append_of_length_le (le_refl _)]; simp
      rw [hev, het] at A5
      obtain ⟨l', k1, k2⟩ := focus_same g6 g2 g7 g8 g5 (h' := h.put p (.arr vs0)) (fun q hq => put_other _ _ (fun e => n3 p (by simp) q hq e.symm))
        (Holds.arr (put_cell _ _ _) A5)
      have hmem : ∀ q ∈ l', q = p ∨ q ∈ l2 ∨ q ∈ lr := by
        intro q hq
        have := k2.mem_iff.mp hq
        simp only [List.mem_append, List.mem_cons, A5p.mem_iff] at this
        tauto
      have hlt' : ∀ q ∈ l', q < (h.put p (.arr vs0)).next := by
        intro q hq
        rw [put_next]
        rcases hmem q hq with rfl | hq | hq
        · exact hp
        · exact hsubd q (by simp [hl2 q hq])
        · exact hsub' q hq
      have hlt1 : ∀ q ∈ l1, q < (h.put p (.arr vs0)).next := fun q hq => by
        rw [put_next]; exact hsubd q (by simp [hl1 q hq])
      have nd' : l'.Nodup := by
        refine k2.nodup_iff.mpr (List.nodup_append.mpr ⟨List.nodup_cons.mpr ⟨?_, A5p.nodup_iff.mpr (List.nodup_append.mp hnd12).2.1⟩, n2, ?_⟩)
        · intro hq
          exact hpk (hl2 p (A5p.mem_iff.mp hq))
        · intro a ha b hb e
          simp only [List.mem_cons, A5p.mem_iff] at ha
          rcases ha with ha | ha
          · exact n3 p (by simp) b hb (by omega)
          · exact n3 a (by simp [hl2 a ha]) b hb e
      have hf' := hf.put hp (.arr vs0)
      obtain ⟨h', w', lw, e1, e2, e3, e4, e5, e6, _⟩ := copy_spec h.fuel (h.put p (.arr vs0)) v x l1
        (by have := length_le_of_lt (List.nodup_append.mp hnd12).1 hlt1; rw [put_next] at this; simp [Heap.fuel]; omega) A2 hlt1
      obtain ⟨h'', f1, f2⟩ := declare_spec (holds_mono k1 fun q hq => e3.2 q (hlt' q hq)) nd'
        (fun q hq => lt_of_lt_of_le (hlt' q hq) e3.1) (e6 hf') e2 e4 (fun q hq => (e5 q hq).2)
        (fun q hq hq' => by have := e5 q hq; have := hlt' q hq'; omega)
      refine ⟨h'', ?_, f2⟩
      simp only [step, g1, g2, Res.ok_bind, if_true, Heap.deref, hc, List.getLast?_append, List.getLast?_singleton, Option.some_or, List.dropLast_concat, e1, f1]
    | _ => simp at ht
  | setMember dst k src =>
    obtain ⟨l, H, nd, hlt, hf⟩ := I
    simp only [pstep] at ht
    by_cases hn : dst = [] ∨ src = []
    · simp [hn] at ht
    rw [if_neg hn] at ht
    simp only [not_or] at hn
    simp only [bind, Option.bind_eq_some_iff] at ht
    obtain ⟨y, hy, x, hx, ht⟩ := ht
    obtain ⟨sl, w, lu, lrs, cc, h1, h2, h2', h3, h4, _⟩ := focus src H nd hn.2 hx
    obtain ⟨d, wd, ld, lr, cd, g1, g2, g2', g3, g4, g5, g6, g7, hwk, hww, g8⟩ := focus dst H nd hn.1 hy
    split at ht
    · cases ht
    rename_i hpre
    have g3' := g3
    cases g3 with
    | @obj p ks vs ts lk hc hkl hall =>
      simp only at ht
      obtain ⟨n1, n2, n3⟩ := List.nodup_append.mp (g4.nodup_iff.mp nd)
      have hsub : ∀ q ∈ lu, q < h.next := fun q hq => hlt q (h4.mem_iff.mpr (by simp [hq]))
      have hsubd : ∀ q ∈ p :: lk, q < h.next := fun q hq => hlt q (g4.mem_iff.mpr (by simp only [List.mem_append]; exact .inl hq))
      have hsub' : ∀ q ∈ lr, q < h.next := fun q hq => hlt q (g4.mem_iff.mpr (by simp [hq]))
      have hp : p < h.next := hsubd p (by simp)
      have hpk : p ∉ lk := (List.nodup_cons.mp n1).1
      have hsep : p ∉ lu := separate src dst H nd h2' h3 g2' ⟨_, _, g3'⟩ hpre
      have hlen := holdsAll_length hall
      have ndu := (List.nodup_append.mp (h4.nodup_iff.mp nd)).1
      by_cases hk : k ∈ ks
      · simp only [hk, if_true, Option.some.injEq, Prod.mk.injEq] at ht
        obtain ⟨rfl, rfl⟩ := ht
        have hidx : ks.idxOf k < ks.length := List.idxOf_lt_length_iff.mpr hk
        obtain ⟨h', w', lw, e1, e2, e3, e4, e5, e6, e7, e8⟩ := assignVal_spec (h := h) (d := ⟨p, ks.idxOf k⟩) (c := .obj ks vs) hf hc
          (by simp only [Cell.kids]; omega) (fun _ => rfl) (fun _ _ => rfl) hp h3 ndu hsub hsep
        obtain ⟨v0, l1, l2, a1, a2, a3, a4, _, _⟩ := holdsAll_focus hall (i := ks.idxOf k) (t := ts[ks.idxOf k]'(by omega)) (List.getElem?_eq_getElem _)
        have hl2 : ∀ q ∈ l2, q ∈ lk := fun q hq => a3.mem_iff.mpr (by simp [hq])
        obtain ⟨lk', b1, b2⟩ := a4 h' w' x lw (fun q hq => e4 q (hsubd q (by simp [hl2 q hq])) (fun e => hpk (by have e' : q = p := e; rw [← e']; exact hl2 q hq))) e5
        have Hnew : Holds h' ⟨.obj, .ptr p⟩ (.obj ks (ts.set (ks.idxOf k) x)) (p :: lk') := .obj e2 (by simpa using hkl) b1
        obtain ⟨l', k1, k2⟩ := focus_same g6 g2 g7 g8 g5 (fun q hq => e4 q (hsub' q hq) (fun e => n3 p (by simp) q hq (by have e' : q = p := e; exact e'.symm))) Hnew
        refine ⟨h', by simp only [step, h1, h2, g1, g2, Res.ok_bind, if_true, Heap.deref, hc, if_pos hk, e1], l', k1, k2.nodup_iff.mpr ?_, ?_, e8⟩
        · have hnd12 := a3.nodup_iff.mp (List.nodup_cons.mp n1).2
          refine List.nodup_append.mpr ⟨List.nodup_cons.mpr ⟨?_, b2.nodup_iff.mpr (List.nodup_append.mpr ⟨e6, (List.nodup_append.mp hnd12).2.1, ?_⟩)⟩, n2, ?_⟩
          · simp only [b2.mem_iff, List.mem_append, not_or]
            exact ⟨fun hq => by have := e7 p hq; omega, fun hq => hpk (hl2 p hq)⟩
          · intro a ha b hb e
            have := e7 a ha
            have := hsubd b (by simp [hl2 b hb])
            omega
          · intro a ha b hb e
            simp only [List.mem_cons, b2.mem_iff, List.mem_append] at ha
            rcases ha with ha | ha | ha
            · exact n3 p (by simp) b hb (by omega)
            · have := e7 a ha
              have := hsub' b hb
              omega
            · exact n3 a (by simp [hl2 a ha]) b hb e
        · intro q hq
          have := k2.mem_iff.mp hq
          simp only [List.mem_append, List.mem_cons, b2.mem_iff] at this
          rcases this with (rfl | hq | hq) | hq
          · omega
          · exact (e7 q hq).2
          · have := hsubd q (by simp [hl2 q hq]); omega
          · have := hsub' q hq; omega
      · simp only [hk, if_false, Option.some.injEq, Prod.mk.injEq] at ht
        obtain ⟨rfl, rfl⟩ := ht
        obtain ⟨h', w', lw, e1, e2, e3, e4, e5, e6, e7, e8⟩ := assignVal_spec (h := h.put p (.obj (ks ++ [k]) (vs ++ [⟨.undef, .null⟩])))
          (d := ⟨p, vs.length⟩) (c := .obj (ks ++ [k]) (vs ++ [⟨.undef, .null⟩])) (hf.put hp _) (put_cell _ _ _) (by simp [Cell.kids])
          (fun _ => rfl) (fun _ _ => rfl) hp (holds_mono h3 fun q hq => put_other _ _ (fun e => hsep (e ▸ hq))) ndu hsub hsep
        rw [put_next] at e3 e4 e7
        have hcell : h'.cell p = some (.obj (ks ++ [k]) (vs ++ [w'])) := by
          rw [e2]
          simp [Cell.kids, Cell.withKids, List.set_append]
        have hother : ∀ q, q < h.next → q ≠ p → h'.cell q = h.cell q := fun q hq hne => by rw [e4 q hq hne, put_other _ _ hne]
        have Hnew : Holds h' ⟨.obj, .ptr p⟩ (.obj (ks ++ [k]) (ts ++ [x])) (p :: (lk ++ lw)) :=
          .obj hcell (by simp [hkl]) (holdsAll_append (holdsAll_mono hall fun q hq => hother q (hsubd q (by simp [hq])) (fun e => hpk (e ▸ hq))) (holdsAll_one e5))
        obtain ⟨l', k1, k2⟩ := focus_same g6 g2 g7 g8 g5 (fun q hq => hother q (hsub' q hq) (fun e => n3 p (by simp) q hq e.symm)) Hnew
        refine ⟨h', by simp only [step, h1, h2, g1, g2, Res.ok_bind, if_true, Heap.deref, hc, if_neg hk, e1], l', k1, k2.nodup_iff.mpr ?_, ?_, e8⟩
        · refine List.nodup_append.mpr ⟨List.nodup_cons.mpr ⟨?_, List.nodup_append.mpr ⟨(List.nodup_cons.mp n1).2, e6, ?_⟩⟩, n2, ?_⟩
          · simp only [List.mem_append, not_or]
            exact ⟨hpk, fun hq => by have := e7 p hq; omega⟩
          · intro a ha b hb e
            have := e7 b hb
            have := hsubd a (by simp [ha])
            omega
          · intro a ha b hb e
            simp only [List.mem_cons, List.mem_append] at ha
            rcases ha with ha | ha | ha
            · exact n3 p (by simp) b hb (by omega)
            · exact n3 a (by simp [ha]) b hb e
            · have := e7 a ha
              have := hsub' b hb
              omega
        · intro q hq
          have := k2.mem_iff.mp hq
          simp only [List.mem_append, List.mem_cons] at this
          rcases this with (rfl | hq | hq) | hq
          · omega
          · have := hsubd q (by simp [hq]); omega
          · exact (e7 q hq).2
          · have := hsub' q hq; omega
    | _ => simp at ht
  | eraseMember dst k =>
    obtain ⟨l, H, nd, hlt, hf⟩ := I
    simp only [pstep] at ht
    by_cases hn : dst = []
    · simp [hn] at ht
    rw [if_neg hn] at ht
    simp only [bind, Option.bind_eq_some_iff] at ht
    obtain ⟨y, hy, ht⟩ := ht
    obtain ⟨d, wd, ld, lr, cd, g1, g2, g2', g3, g4, g5, g6, g7, hwk, hww, g8⟩ := focus dst H nd hn hy
    cases g3 with
    | @obj p ks vs ts lk hc hkl hall =>
      simp only at ht
      by_cases hk : k ∈ ks
      · simp only [hk, if_true, Option.some.injEq, Prod.mk.injEq] at ht
        obtain ⟨rfl, rfl⟩ := ht
        obtain ⟨n1, n2, n3⟩ := List.nodup_append.mp (g4.nodup_iff.mp nd)
        have hsubd : ∀ q ∈ p :: lk, q < h.next := fun q hq => hlt q (g4.mem_iff.mpr (by simp only [List.mem_append]; exact .inl hq))
        have hsub' : ∀ q ∈ lr, q < h.next := fun q hq => hlt q (g4.mem_iff.mpr (by simp [hq]))
        have hp : p < h.next := hsubd p (by simp)
        have hpk : p ∉ lk := (List.nodup_cons.mp n1).1
        have hlen := holdsAll_length hall
        have hidx : ks.idxOf k < ks.length := List.idxOf_lt_length_iff.mpr hk
        obtain ⟨v0, l1, l2, a1, a2, a3, _, a5, _⟩ := holdsAll_focus hall (i := ks.idxOf k) (t := ts[ks.idxOf k]'(by omega)) (List.getElem?_eq_getElem _)
        have hl1 : ∀ q ∈ l1, q ∈ lk := fun q hq => a3.mem_iff.mpr (by simp [hq])
        have hl2 : ∀ q ∈ l2, q ∈ lk := fun q hq => a3.mem_iff.mpr (by simp [hq])
        obtain ⟨m1, m2, m3⟩ := List.nodup_append.mp (a3.nodup_iff.mp (List.nodup_cons.mp n1).2)
        obtain ⟨h', e1, e2, e3, e4⟩ := destroy_spec h.fuel h v0 _ l1
          (by have := length_le_of_lt m1 (fun q hq => hsubd q (by simp [hl1 q hq])); simp [Heap.fuel]; omega) a2 m1
        have hread : readAt h ⟨p, ks.idxOf k⟩ = .ok v0 := by simp [readAt, hc, Cell.kids, a1]
        have hf' : h'.Fresh := by
          intro q hq
          rcases e4 q with h0 | h0
          · rw [h0]; exact hf q (by omega)
          · exact h0
        obtain ⟨lk', b1, b2⟩ := a5 (h'.put p (.obj (ks.eraseIdx (ks.idxOf k)) (vs.eraseIdx (ks.idxOf k))))
          (fun q hq => by
            have hne : q ≠ p := fun e => hpk (e ▸ hl2 q hq)
            rw [put_other _ _ hne, e3 q (fun hq' => m3 q hq' q hq rfl)])
        have Hnew : Holds (h'.put p (.obj (ks.eraseIdx (ks.idxOf k)) (vs.eraseIdx (ks.idxOf k)))) ⟨.obj, .ptr p⟩
            (.obj (ks.eraseIdx (ks.idxOf k)) (ts.eraseIdx (ks.idxOf k))) (p :: lk') :=
          .obj (put_cell _ _ _) (by rw [List.length_eraseIdx, List.length_eraseIdx, hkl]) b1
        obtain ⟨l', k1, k2⟩ := focus_same g6 g2 g7 g8 g5 (fun q hq => by
          have hne : q ≠ p := fun e => n3 p (by simp) q hq e.symm
          rw [put_other _ _ hne, e3 q (fun hq' => n3 q (by simp [hl1 q hq']) q hq rfl)]) Hnew
        refine ⟨_, by simp only [step, g1, g2, Res.ok_bind, if_true, Heap.deref, hc, if_pos hk, hread, e1], l', k1, k2.nodup_iff.mpr ?_, ?_,
          hf'.put (by rw [e2]; exact hp) _⟩
        · refine List.nodup_append.mpr ⟨List.nodup_cons.mpr ⟨fun hq => hpk (hl2 p (b2.mem_iff.mp hq)), b2.nodup_iff.mpr m2⟩, n2, ?_⟩
          intro a ha b hb e
          simp only [List.mem_cons, b2.mem_iff] at ha
          rcases ha with ha | ha
          · exact n3 p (by simp) b hb (by omega)
          · exact n3 a (by simp [hl2 a ha]) b hb e
        · intro q hq
          rw [put_next, e2]
          have := k2.mem_iff.mp hq
          simp only [List.mem_append, List.mem_cons, b2.mem_iff] at this
          rcases this with (rfl | hq) | hq
          · exact hp
          · exact hsubd q (by simp [hl2 q hq])
          · exact hsub' q hq
      · simp only [hk, if_false, Option.some.injEq, Prod.mk.injEq] at ht
        obtain ⟨rfl, rfl⟩ := ht
        exact ⟨h, by simp only [step, g1, g2, Res.ok_bind, if_true, Heap.deref, hc, if_neg hk], l, H, nd, hlt, hf⟩
    | _ => simp at ht
  | delegateInt dst z => exact delegate_sim I (fun h p hc => .int hc) ht
  | delegateArray dst => exact delegate_sim I hempty ht
  | delegateObject dst => exact delegate_sim I hemptyo ht
  | dropInt i =>
    obtain ⟨l, H, nd, hlt, hf⟩ := I
    simp only [pstep, bind, Option.bind_eq_some_iff] at ht
    obtain ⟨y, hy, ht⟩ := ht
    obtain ⟨d, wd, ld, lr, cd, g1, g2, g2', g3, g4, g5, g6, g7, hwk, hww, g8⟩ := focus [.elem i] H nd (by simp) hy
    obtain ⟨n1, n2, n3⟩ := List.nodup_append.mp (g4.nodup_iff.mp nd)
    have hsub' : ∀ q ∈ lr, q < h.next := fun q hq => hlt q (g4.mem_iff.mpr (by simp [hq]))
    cases g3 with
    | @int p z hc =>
      simp only [Option.some.injEq, Prod.mk.injEq] at ht
      obtain ⟨rfl, rfl⟩ := ht
      have hp : ∀ q ∈ lr, q ≠ p := fun q hq e => n3 p (by simp) q hq e.symm
      let h' : Heap := ⟨h.next, fun q => if q = p then none else h.cell q⟩
      have hfree : h.free p = .ok h' := by simp [Heap.free, hc, h']
      have hkeep : ∀ q ∈ lr, h'.cell q = h.cell q := fun q hq => by simp [h', hp q hq]
      have hc' : h'.cell d.addr = some cd := by rw [hkeep _ g5, g6]
      have hd : destroy h'.fuel h' ⟨.int, .ptr p⟩ = .ok h' := by simp [Heap.fuel, destroy]
      obtain ⟨l', k1, k2⟩ := g8 (h'.put d.addr (cd.withKids (cd.kids.set d.idx ⟨.undef, .null⟩))) ⟨.undef, .null⟩ .undef [] (put_cell _ _ _)
        (fun q hq hne => by rw [put_other _ _ hne, hkeep q hq]) .undef
      simp only [List.nil_append] at k2
      have hf' : h'.Fresh := by
        intro q hq
        by_cases e : q = p
        · simp [h', e]
        · simp only [h', if_neg e]; exact hf q hq
      refine ⟨_, by simp only [step, g1, g2, Res.ok_bind, if_true, Heap.deref, hc, hfree, hd, writeAt_ok hc' g7], l', k1, k2.nodup_iff.mpr n2, ?_,
        hf'.put (hsub' _ g5) _⟩
      intro q hq
      exact hsub' q (k2.mem_iff.mp hq)
    | _ => simp at ht

theorem run_sim {h : Heap} {t : Tree} (I : Inv h t) : ∀ {ops : List Op} {t' : Tree} {rs : List Rep}, pruns t ops = some (t', rs) →
    ∃ h', run h ops = .ok (h', rs) ∧ Inv h' t' := by
  intro ops
  induction ops generalizing h t with
  | nil =>
    intro t' rs ht
    simp only [pruns, Option.some.injEq, Prod.mk.injEq] at ht
    obtain ⟨rfl, rfl⟩ := ht
    exact ⟨h, rfl, I⟩
  | cons op ops ih =>
    intro t' rs ht
    simp only [pruns, bind, Option.bind_eq_some_iff, Option.some.injEq, Prod.mk.injEq] at ht
    obtain ⟨⟨t1, r1⟩, h1, ⟨t2, rs2⟩, h2, rfl, rfl⟩ := ht
    obtain ⟨ha, e1, I1⟩ := step_sim I h1
    obtain ⟨hb, e2, I2⟩ := ih I1 h2
    exact ⟨hb, by simp [run, e1, e2], I2⟩

end Eni.Owner
