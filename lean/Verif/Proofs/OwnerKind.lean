import Verif.Spec.OwnerKind
import Verif.Proofs.OwnerArray
/-!
# Programs that use values through their base class: simulation
-/
namespace Eni.Owner
open Spec

theorem holds_kind {h : Heap} {v : Val} {t : Tree} {l : List Nat} (H : Holds h v t l) : v.ty = t.kind := by
  cases H <;> rfl

/-- Copying contents under another kind. -/
theorem copy_mixed {h : Heap} {w : Val} {y : Tree} {ly : List Nat} (H : Holds h w y ly) {k : Ty} (hk : y.kind ≠ k) (hu : k ≠ .undef) (hy : y.kind ≠ .undef)
    (n : Nat) : copy (n + 1) h ⟨k, w.bits⟩ = .ub .badUnion := by
  cases H with
  | undef => exact absurd rfl hy
  | bool => cases k <;> first | exact absurd rfl hk | exact absurd rfl hu | rfl
  | int hc => cases k <;> first | exact absurd rfl hk | exact absurd rfl hu | simp [copy, Heap.deref, hc]
  | str hc => cases k <;> first | exact absurd rfl hk | exact absurd rfl hu | simp [copy, Heap.deref, hc]
  | arr hc _ => cases k <;> first | exact absurd rfl hk | exact absurd rfl hu | simp [copy, Heap.deref, hc]
  | obj hc _ _ => cases k <;> first | exact absurd rfl hk | exact absurd rfl hu | simp [copy, Heap.deref, hc]

/-- Storing what is there already. -/
theorem writeAt_same {h : Heap} {d : Loc} {w : Val} (hr : readAt h d = .ok w) : writeAt h d w = .ok h := by
  rw [readAt] at hr
  cases hc : h.cell d.addr with
  | none => simp [hc] at hr
  | some c =>
    simp only [hc] at hr
    cases hk : c.kids[d.idx]? with
    | none => simp [hk] at hr
    | some v =>
      simp only [hk, Res.ok.injEq] at hr
      subst hr
      obtain ⟨hi, hv⟩ := List.getElem?_eq_some_iff.mp hk
      have e : c.withKids (c.kids.set d.idx v) = c := by
        rw [← hv, List.set_getElem_self]
        cases c <;> rfl
      simp only [writeAt, hc, hi, if_true, e, Res.ok.injEq]
      cases h
      simp only [Heap.put, Heap.mk.injEq, true_and]
      funext q
      split
      · next hq => subst hq; exact hc.symm
      · rfl

theorem pos_inj {t : Tree} {s r : Step} {i : Nat} (h1 : t.pos s = some i) (h2 : t.pos r = some i) : s = r := by
  cases t with
  | arr ts =>
    cases s with
    | elem a =>
      cases r with
      | elem b =>
        simp only [Tree.pos] at h1 h2
        split at h1 <;> split at h2 <;> simp_all
      | mem k => simp [Tree.pos] at h2
    | mem k => simp [Tree.pos] at h1
  | obj ks ts =>
    cases s with
    | elem a => simp [Tree.pos] at h1
    | mem k =>
      cases r with
      | elem b => simp [Tree.pos] at h2
      | mem k' =>
        simp only [Tree.pos] at h1 h2
        split at h1
        · split at h2
          · next m1 m2 =>
            simp only [Option.some.injEq] at h1 h2
            rw [(List.idxOf_inj m1).mp (h1.trans h2.symm)]
          · cases h2
        · cases h1
  | _ => simp [Tree.pos] at h1

/-- Two paths to the same place are equal. -/
theorem locate_inj {h : Heap} {v : Val} {t : Tree} {l : List Nat} (H : Holds h v t l) (nd : l.Nodup) {a b : Path} (ha : a ≠ []) (hb : b ≠ []) {d : Loc}
    (h1 : locate h v a = .ok d) (h2 : locate h v b = .ok d) : a = b := by
  obtain ⟨a0, s, rfl⟩ : ∃ a0 s, a = a0 ++ [s] := ⟨a.dropLast, a.getLast ha, (List.dropLast_append_getLast ha).symm⟩
  obtain ⟨wa, a1, a2⟩ := locate_snoc.mp h1
  obtain ⟨ta, la, _, h3, _⟩ := at_sub a0 H a1
  obtain ⟨hpos, hbits⟩ := stepInto_pos h3 a2
  obtain ⟨p, c, l', rfl, hb', _⟩ := holds_pos h3 hpos
  rw [hbits] at hb'
  cases hb'
  obtain ⟨r, rfl, hr⟩ := place_in H nd hb h2 a1 h3 rfl
  rw [pos_inj hpos hr]

/-- The value at a path becomes undefined and keeps its union. -/
theorem undef_sim {h : Heap} {t : Tree} (I : Inv h t) {path : Path} (hp : path ≠ []) {y : Tree} (hy : t.get path = some y) :
    ∃ d w h', locate h frame path = .ok d ∧ readAt h d = .ok w ∧ w.ty = y.kind ∧ writeAt h d ⟨.undef, w.bits⟩ = .ok h' ∧ Inv h' (t.set .undef path) ∧
      ∀ e u, e ≠ d → readAt h e = .ok u → readAt h' e = .ok u := by
  obtain ⟨l, H, nd, hlt, hf⟩ := I
  obtain ⟨d, w, lu, lr, c, h1, h2, _, h3, h4, h5, h6, h7, hwk, _, h8⟩ := focus path H nd hp hy
  obtain ⟨_, n2, _⟩ := List.nodup_append.mp (h4.nodup_iff.mp nd)
  have hlr : ∀ q ∈ lr, q < h.next := fun q hq => hlt q (h4.mem_iff.mpr (by simp [hq]))
  obtain ⟨l', k1, k2⟩ := h8 (h.put d.addr (c.withKids (c.kids.set d.idx ⟨.undef, w.bits⟩))) ⟨.undef, w.bits⟩ .undef [] (put_cell _ _ _)
    (fun q _ hq => put_other _ _ hq) .undef
  simp only [List.nil_append] at k2
  refine ⟨d, w, _, h1, h2, holds_kind h3, writeAt_ok h6 h7 _, ⟨l', k1, k2.nodup_iff.mpr n2, fun q hq => hlr q (k2.mem_iff.mp hq), hf.put (hlr _ h5) _⟩, ?_⟩
  intro e u hne he
  by_cases ha : e.addr = d.addr
  · have hi : d.idx ≠ e.idx := fun hi => hne (by cases e; cases d; simp_all)
    simp only [readAt, ha, h6] at he
    simp only [readAt, ha, put_cell, hwk]
    rw [List.getElem?_set_ne hi]
    exact he
  · simp only [readAt, put_other _ _ ha]
    exact he

theorem place_of {h : Heap} {t : Tree} (I : Inv h t) {path : Path} (hp : path ≠ []) {y : Tree} (hy : t.get path = some y) :
    ∃ d w ly, locate h frame path = .ok d ∧ readAt h d = .ok w ∧ Holds h w y ly := by
  obtain ⟨l, H, nd, -, -⟩ := I
  obtain ⟨d, w, lu, lr, c, h1, h2, _, h3, _⟩ := focus path H nd hp hy
  exact ⟨d, w, lu, h1, h2, h3⟩

/-- Every operation permitted by `npstep` does what `npstep` says. -/
theorem stepN_sim {h : Heap} {t : Tree} (I : Inv h t) {op : NOp} {t' : Tree} {r : Rep} (ht : npstep t op = some (t', r)) :
    ∃ h', stepN h op = .ok (h', r) ∧ Inv h' t' := by
  cases op with
  | base op => exact stepA_sim I ht
  | takeKind src =>
    simp only [npstep] at ht
    by_cases hn : src = []
    · simp [hn] at ht
    simp only [hn, if_false, bind, Option.bind_eq_some_iff, Option.some.injEq, Prod.mk.injEq] at ht
    obtain ⟨x, hx, rfl, rfl⟩ := ht
    obtain ⟨d, w, h', e1, e2, _, e3, I', _⟩ := undef_sim I hn hx
    exact ⟨h', by simp only [stepN, e1, e2, e3, Res.ok_bind], I'⟩
  | copyKind dst src =>
    simp only [npstep] at ht
    by_cases hn : dst = [] ∨ src = []
    · simp [hn] at ht
    rw [if_neg hn] at ht
    simp only [not_or] at hn
    simp only [bind, Option.bind_eq_some_iff] at ht
    obtain ⟨y, hy, x, hx, ht⟩ := ht
    obtain ⟨d, w, h', e1, e2, e2', e3, I', _⟩ := undef_sim I hn.1 hy
    obtain ⟨l, s, ls, f1, f2, f3⟩ := place_of I hn.2 hx
    split at ht
    · next hk =>
      simp only [Option.some.injEq, Prod.mk.injEq] at ht
      obtain ⟨rfl, rfl⟩ := ht
      have hs : s.ty = w.ty := by rw [holds_kind f3, e2', hk]
      exact ⟨h, by simp only [stepN, e1, e2, f1, f2, hs, writeAt_same e2, Res.ok_bind], I⟩
    · split at ht
      · next hu =>
        simp only [Option.some.injEq, Prod.mk.injEq] at ht
        obtain ⟨rfl, rfl⟩ := ht
        have hs : s.ty = .undef := by rw [holds_kind f3, hu]
        exact ⟨h', by simp only [stepN, e1, e2, f1, f2, hs, e3, Res.ok_bind], I'⟩
      · cases ht
  | moveKind dst src =>
    simp only [npstep] at ht
    by_cases hn : dst = [] ∨ src = []
    · simp [hn] at ht
    rw [if_neg hn] at ht
    simp only [not_or] at hn
    simp only [bind, Option.bind_eq_some_iff] at ht
    obtain ⟨y, hy, x, hx, ht⟩ := ht
    obtain ⟨d, w, h', e1, e2, e2', e3, I', e4⟩ := undef_sim I hn.1 hy
    obtain ⟨l, s, g', f1, f2, f2', f3, J', _⟩ := undef_sim I hn.2 hx
    split at ht
    · next he =>
      simp only [Option.some.injEq, Prod.mk.injEq] at ht
      obtain ⟨rfl, rfl⟩ := ht
      subst he
      rw [e1] at f1
      cases f1
      exact ⟨h, by simp only [stepN, e1, e2, Res.ok_bind, if_true], I⟩
    · next he =>
      have hdl : d ≠ l := by
        rintro rfl
        obtain ⟨lf, H, nd, _⟩ := I
        exact he (locate_inj H nd hn.1 hn.2 e1 f1)
      split at ht
      · next hk =>
        simp only [Option.some.injEq, Prod.mk.injEq] at ht
        obtain ⟨rfl, rfl⟩ := ht
        have hs : s.ty = w.ty := by rw [f2', e2', hk]
        exact ⟨g', by simp only [stepN, e1, e2, f1, f2, hs, if_neg hdl, writeAt_same e2, f3, Res.ok_bind], J'⟩
      · split at ht
        · next hu =>
          simp only [Option.some.injEq, Prod.mk.injEq] at ht
          obtain ⟨rfl, rfl⟩ := ht
          have hs : s.ty = .undef := by rw [f2', hu]
          have r2 := e4 l s (fun e => hdl e.symm) f2
          have hsame : writeAt h' l ⟨.undef, s.bits⟩ = .ok h' := by
            have := writeAt_same r2
            rw [show s = ⟨.undef, s.bits⟩ by cases s; simp_all] at this
            exact this
          exact ⟨h', by simp only [stepN, e1, e2, f1, f2, hs, if_neg hdl, e3, r2, hsame, Res.ok_bind], I'⟩
        · cases ht

theorem runN_sim {h : Heap} {t : Tree} (I : Inv h t) : ∀ {ops : List NOp} {t' : Tree} {rs : List Rep}, npruns t ops = some (t', rs) →
    ∃ h', runN h ops = .ok (h', rs) ∧ Inv h' t' := by
  intro ops
  induction ops generalizing h t with
  | nil =>
    intro t' rs ht
    simp only [npruns, Option.some.injEq, Prod.mk.injEq] at ht
    obtain ⟨rfl, rfl⟩ := ht
    exact ⟨h, rfl, I⟩
  | cons op ops ih =>
    intro t' rs ht
    simp only [npruns, bind, Option.bind_eq_some_iff, Option.some.injEq, Prod.mk.injEq] at ht
    obtain ⟨⟨t1, r1⟩, h1, ⟨t2, rs2⟩, h2, rfl, rfl⟩ := ht
    obtain ⟨ha, e1, I1⟩ := stepN_sim I h1
    obtain ⟨hb, e2, I2⟩ := ih I1 h2
    exact ⟨hb, by simp [runN, e1, e2], I2⟩

end Eni.Owner
