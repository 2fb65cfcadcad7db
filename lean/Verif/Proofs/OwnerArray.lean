import Verif.Spec.OwnerArray
import Verif.Proofs.OwnerCountRun
/-!
# Programs that assign whole arrays behave as specified
-/
namespace Eni.Owner
open Spec

theorem holdsAll_undef (h : Heap) (b : Bits) (n : Nat) : HoldsAll h (List.replicate n ⟨.undef, b⟩) (List.replicate n .undef) [] := by
  induction n with
  | zero => exact .nil
  | succ n ih =>
    have := HoldsAll.cons (h := h) (Holds.undef (b := b)) ih
    simpa [List.replicate_succ] using this

theorem holdsAll_take {h : Heap} (n : Nat) : ∀ {vs ts l}, HoldsAll h vs ts l → ∃ l', HoldsAll h (vs.take n) (ts.take n) l' ∧ l'.Sublist l := by
  induction n with
  | zero =>
    intro vs ts l H
    exact ⟨[], by simpa using HoldsAll.nil, List.nil_sublist _⟩
  | succ n ih =>
    intro vs ts l H
    cases H with
    | nil => exact ⟨[], by simpa using HoldsAll.nil, List.nil_sublist _⟩
    | cons h1 h2 =>
      obtain ⟨l', a, b⟩ := ih h2
      exact ⟨_, by simpa using HoldsAll.cons h1 a, List.Sublist.append (List.Sublist.refl _) b⟩

/-- The loop. `h0` is the heap before it; the elements of the source still to be copied are `us`. The source is another array, or the target itself. -/
theorem assignElems_spec {h0 : Heap} {p q : Nat} (hp : p < h0.next) : ∀ {us : List Val} {ts : List Tree} {ls : List Nat} {us1 : List Val} {g : Heap}
    {ws rest : List Val} {ts1 : List Tree} {lw : List Nat}, HoldsAll h0 us ts ls → ls.Nodup → (∀ x ∈ ls, x < h0.next ∧ x ≠ p) →
    ((q ≠ p ∧ q < h0.next ∧ h0.cell q = some (.arr (us1 ++ us))) ∨ (q = p ∧ rest = us)) →
    g.cell p = some (.arr (ws ++ rest)) → ws.length = us1.length → rest.length = us.length → h0.next ≤ g.next →
    (∀ x, x < h0.next → x ≠ p → g.cell x = h0.cell x) → g.Fresh → HoldsAll g ws ts1 lw → lw.Nodup → (∀ x ∈ lw, h0.next ≤ x ∧ x < g.next) →
    ∃ g' ws' lw', assignElems g p q us1.length us.length = .ok g' ∧ g'.cell p = some (.arr ws') ∧ h0.next ≤ g'.next ∧
      (∀ x, x < h0.next → x ≠ p → g'.cell x = h0.cell x) ∧ g'.Fresh ∧ HoldsAll g' ws' (ts1 ++ ts) lw' ∧ lw'.Nodup ∧
      (∀ x ∈ lw', h0.next ≤ x ∧ x < g'.next) ∧ Counts g g' (Tree.cellsAll ts) 0 := by
  intro us
  induction us with
  | nil =>
    intro ts ls us1 g ws rest ts1 lw H nd hls hq hc hl hr hn ho hf Hw ndw hlw
    cases H
    have : rest = [] := List.length_eq_zero_iff.mp hr
    subst this
    exact ⟨g, ws, lw, rfl, by simpa using hc, hn, ho, hf, by simpa using Hw, ndw, hlw, .refl g⟩
  | cons u us ih =>
    intro ts ls us1 g ws rest ts1 lw H nd hls hq hc hl hr hn ho hf Hw ndw hlw
    cases rest with
    | nil => simp at hr
    | cons r rest =>
    cases H with
    | @cons _ t l1 _ ts l2 hu hall =>
      obtain ⟨n1, n2, n3⟩ := List.nodup_append.mp nd
      have hl1 : ∀ x ∈ l1, x < h0.next ∧ x ≠ p := fun x hx => hls x (by simp [hx])
      have hread : readAt g ⟨q, us1.length⟩ = .ok u := by
        rcases hq with ⟨a, b, c⟩ | ⟨a, b⟩
        · have : g.cell q = some (.arr (us1 ++ u :: us)) := by rw [ho q b a, c]
          simp [readAt, this, Cell.kids]
        · subst a
          simp only [List.cons.injEq] at b
          simp [readAt, hc, Cell.kids, ← hl, b.1]
      have hug : Holds g u t l1 := holds_mono hu fun x hx => ho x (hl1 x hx).1 (hl1 x hx).2
      obtain ⟨g1, w', lw1, e1, e2, e3, e4, e5, e6, e7, e8⟩ := assignVal_spec (h := g) (d := ⟨p, us1.length⟩) (c := .arr (ws ++ r :: rest)) hf hc
        (by simp [Cell.kids, hl]) (fun _ => rfl) (fun _ _ => rfl) (by show p < g.next; omega) hug n1 (fun x hx => by have := (hl1 x hx).1; omega)
        (fun hx => (hl1 p hx).2 rfl)
      have hcell : g1.cell p = some (.arr ((ws ++ [w']) ++ rest)) := by
        rw [e2]
        simp [Cell.kids, Cell.withKids, ← hl]
      have hlwp : ∀ x ∈ lw, x ≠ p := fun x hx => by have := hlw x hx; omega
      obtain ⟨g', ws', lw', k⟩ := ih (us1 := us1 ++ [u]) (g := g1) (ws := ws ++ [w']) (rest := rest) (ts1 := ts1 ++ [t]) (lw := lw ++ lw1) hall n2
        (fun x hx => hls x (by simp [hx]))
        (by
          rcases hq with ⟨a, b, c⟩ | ⟨a, b⟩
          · exact .inl ⟨a, b, by simpa using c⟩
          · simp only [List.cons.injEq] at b
            exact .inr ⟨a, b.2⟩)
        hcell (by simp [hl]) (by simpa using hr) (by omega)
        (fun x hx hne => by rw [e4 x (by omega) hne, ho x hx hne]) e8
        (holdsAll_append (holdsAll_mono Hw fun x hx => e4 x (hlw x hx).2 (hlwp x hx)) (holdsAll_one e5))
        (List.nodup_append.mpr ⟨ndw, e6, fun a ha b hb e => by have := hlw a ha; have := e7 b hb; omega⟩)
        (fun x hx => by
          rcases List.mem_append.mp hx with hx | hx
          · have := hlw x hx; omega
          · have := e7 x hx; omega)
      have kc := (assignVal_counts hug n1 (fun x hx => by have := (hl1 x hx).1; omega) (fun hx => (hl1 p hx).2 rfl) e1)
      refine ⟨g', ws', lw', ?_, ?_⟩
      · show (readAt g ⟨q, us1.length⟩ >>= fun s => assignVal g ⟨p, us1.length⟩ s >>= fun h => assignElems h p q (us1.length + 1) us.length) = _
        rw [hread, Res.ok_bind, e1, Res.ok_bind]
        simpa using k.1
      · obtain ⟨_, k2, k3, k4, k5, k6, k7, k8, k9⟩ := k
        exact ⟨k2, k3, k4, k5, by simpa using k6, k7, k8, kc.trans k9⟩

theorem arrayAt_ok {h : Heap} {path : Path} {l : Loc} {p : Nat} {vs : List Val} (h1 : locate h frame path = .ok l) (h2 : readAt h l = .ok ⟨.arr, .ptr p⟩)
    (hc : h.cell p = some (.arr vs)) : arrayAt h path = .ok (p, vs) := by
  simp [arrayAt, h1, h2, Heap.deref, hc]

/-- Replacing the elements of an array by others that consist of new cells, or of cells the array had before. -/
theorem replace_sim {h h' : Heap} {t : Tree} {l : List Nat} (H : Holds h frame t l) (nd : l.Nodup) (hlt : ∀ q ∈ l, q < h.next) {dst : Path}
    {d : Loc} {cd : Cell} {p : Nat} {lk lr lw : List Nat} {ws : List Val} {us : List Tree} (g2 : readAt h d = .ok ⟨.arr, .ptr p⟩)
    (g4 : l.Perm ((p :: lk) ++ lr)) (g5 : d.addr ∈ lr) (g6 : h.cell d.addr = some cd) (g7 : d.idx < cd.kids.length)
    (g8 : ∀ (h' : Heap) w' u' lu', h'.cell d.addr = some (cd.withKids (cd.kids.set d.idx w')) → (∀ q ∈ lr, q ≠ d.addr → h'.cell q = h.cell q) →
        Holds h' w' u' lu' → ∃ l', Holds h' frame (t.set u' dst) l' ∧ l'.Perm (lu' ++ lr))
    (hn : h.next ≤ h'.next) (ho : ∀ q, q < h.next → q ≠ p → h'.cell q = h.cell q) (hf : h'.Fresh) (hc : h'.cell p = some (.arr ws))
    (Hw : HoldsAll h' ws us lw) (ndw : lw.Nodup) (hlw : ∀ q ∈ lw, q ∈ lk ∨ (h.next ≤ q ∧ q < h'.next)) : Inv h' (t.set (.arr us) dst) := by
  obtain ⟨n1, n2, n3⟩ := List.nodup_append.mp (g4.nodup_iff.mp nd)
  have hsubd : ∀ q ∈ p :: lk, q < h.next := fun q hq => hlt q (g4.mem_iff.mpr (by simp only [List.mem_append]; exact .inl hq))
  have hsub' : ∀ q ∈ lr, q < h.next := fun q hq => hlt q (g4.mem_iff.mpr (by simp [hq]))
  have hp : p < h.next := hsubd p (by simp)
  obtain ⟨l', k1, k2⟩ := focus_same g6 g2 g7 g8 g5 (fun q hq => ho q (hsub' q hq) (fun e => n3 p (by simp) q hq e.symm)) (.arr hc Hw)
  refine ⟨l', k1, k2.nodup_iff.mpr (List.nodup_append.mpr ⟨List.nodup_cons.mpr ⟨?_, ndw⟩, n2, ?_⟩), ?_, hf⟩
  · intro hq
    rcases hlw p hq with hq | hq
    · exact (List.nodup_cons.mp n1).1 hq
    · omega
  · intro a ha b hb e
    subst e
    rcases List.mem_cons.mp ha with rfl | ha
    · exact n3 a (by simp) a hb rfl
    · rcases hlw a ha with ha | ha
      · exact n3 a (by simp [ha]) a hb rfl
      · have := hsub' a hb; omega
  · intro q hq
    have := k2.mem_iff.mp hq
    simp only [List.mem_append, List.mem_cons] at this
    rcases this with (rfl | hq) | hq
    · omega
    · rcases hlw q hq with hq | hq
      · have := hsubd q (by simp [hq]); omega
      · exact hq.2
    · have := hsub' q hq; omega

theorem elemCells_eq {t : Tree} {p : Path} {ts : List Tree} (h : t.get p = some (.arr ts)) (n : Nat) : elemCells t p n = Tree.cellsAll (ts.drop n) := by
  simp [elemCells, h]

theorem cellsAll_undefs (n : Nat) : Tree.cellsAll (List.replicate n .undef) = 0 := by
  induction n with
  | zero => rfl
  | succ n ih => simp [List.replicate_succ, Tree.cellsAll, Tree.cells, ih]

/-- Every operation permitted by `apstep` does what `apstep` says, with the numbers of Spec/OwnerArray. -/
theorem stepA_ran {h : Heap} {t : Tree} (I : Inv h t) {op : AOp} {t' : Tree} {r : Rep} (ht : apstep t op = some (t', r)) :
    ∃ h', stepA h op = .ok (h', r) ∧ Ran h t h' t' (allocatedA t op) (lostA t op) := by
  cases op with
  | base op => exact step_ran I ht
  | clear dst =>
    obtain ⟨l, H, nd, hlt, hf⟩ := I
    simp only [apstep] at ht
    by_cases hn : dst = []
    · simp [hn] at ht
    rw [if_neg hn] at ht
    simp only [bind, Option.bind_eq_some_iff] at ht
    obtain ⟨y, hy, ht⟩ := ht
    obtain ⟨d, wd, ld, lr, cd, g1, g2, g2', g3, g4, g5, g6, g7, hwk, hww, g8⟩ := focus dst H nd hn hy
    cases g3 with
    | @arr p vs ts lk hc hall =>
      simp only [Option.some.injEq, Prod.mk.injEq] at ht
      obtain ⟨rfl, rfl⟩ := ht
      have hp : p < h.next := hlt p (g4.mem_iff.mpr (by simp))
      have hcells := cells_set hy (.arr [])
      have hlive := live_put (h := h) (p := p) (by simp [hc]) (.arr [])
      refine ⟨h.put p (.arr []), by simp only [stepA, arrayAt_ok g1 g2 hc, Res.ok_bind], ?_, rfl, by
        simp only [lostA, elemCells_eq hy, List.drop_zero, hlive]
        simp only [Tree.cells, Tree.cellsAll] at hcells
        omega⟩
      exact replace_sim H nd hlt g2 g4 g5 g6 g7 g8 (le_refl _) (fun q _ hq => put_other _ _ hq)
        (hf.put hp _) (put_cell _ _ _) .nil List.nodup_nil (by simp)
    | _ => simp at ht
  | resize dst n =>
    obtain ⟨l, H, nd, hlt, hf⟩ := I
    simp only [apstep] at ht
    by_cases hn : dst = []
    · simp [hn] at ht
    rw [if_neg hn] at ht
    simp only [bind, Option.bind_eq_some_iff] at ht
    obtain ⟨y, hy, ht⟩ := ht
    obtain ⟨d, wd, ld, lr, cd, g1, g2, g2', g3, g4, g5, g6, g7, hwk, hww, g8⟩ := focus dst H nd hn hy
    cases g3 with
    | @arr p vs ts lk hc hall =>
      simp only [Option.some.injEq, Prod.mk.injEq] at ht
      obtain ⟨rfl, rfl⟩ := ht
      have hp : p < h.next := hlt p (g4.mem_iff.mpr (by simp))
      have hnk := (List.nodup_cons.mp (List.nodup_append.mp (g4.nodup_iff.mp nd)).1)
      obtain ⟨lk', a, b⟩ := holdsAll_take n hall
      have a' : HoldsAll (h.put p (.arr (resized vs n))) (vs.take n) (ts.take n) lk' :=
        holdsAll_mono a fun q hq => put_other _ _ (fun e => hnk.1 (e ▸ b.subset hq))
      have hlen := holdsAll_length hall
      have Hw := holdsAll_append a' (holdsAll_undef (h.put p (.arr (resized vs n))) .raw (n - ts.length))
      have hcells := cells_set hy (.arr (ts.take n ++ List.replicate (n - ts.length) .undef))
      have hlive := live_put (h := h) (p := p) (by simp [hc]) (.arr (resized vs n))
      have hsplit := cellsAll_append (ts.take n) (ts.drop n)
      rw [List.take_append_drop] at hsplit
      refine ⟨h.put p (.arr (resized vs n)), by simp only [stepA, arrayAt_ok g1 g2 hc, Res.ok_bind], ?_, rfl, by
        simp only [lostA, elemCells_eq hy, hlive]
        simp only [Tree.cells, cellsAll_append, cellsAll_undefs] at hcells
        omega⟩
      refine replace_sim (ws := resized vs n) H nd hlt g2 g4 g5 g6 g7 g8 (le_refl _)
        (fun q _ hq => put_other _ _ hq) (hf.put hp _) (put_cell _ _ _) (by rw [← hlen] at *; exact Hw) ?_ ?_
      · simpa using b.nodup hnk.2
      · intro q hq
        exact .inl (b.subset (by simpa using hq))
    | _ => simp at ht
  | assignArray dst src =>
    obtain ⟨l, H, nd, hlt, hf⟩ := I
    simp only [apstep] at ht
    by_cases hn : dst = [] ∨ src = []
    · simp [hn] at ht
    rw [if_neg hn] at ht
    simp only [not_or] at hn
    simp only [bind, Option.bind_eq_some_iff] at ht
    obtain ⟨y, hy, x, hx, ht⟩ := ht
    obtain ⟨sl, w, lu, lrs, cc, h1, h2, h2', h3, h4, _⟩ := focus src H nd hn.2 hx
    obtain ⟨d, wd, ld, lr, cd, g1, g2, g2', g3, g4, g5, g6, g7, hwk, hww, g8⟩ := focus dst H nd hn.1 hy
    have g3' := g3
    have h3' := h3
    cases g3 with
    | @arr p vs ts lk hc hall =>
      cases h3 with
      | @arr q us xs lq hcq hallq =>
        simp only at ht
        split at ht
        · cases ht
        rename_i hpre
        simp only [Option.some.injEq, Prod.mk.injEq] at ht
        obtain ⟨rfl, rfl⟩ := ht
        obtain ⟨n1, n2, n3⟩ := List.nodup_append.mp (g4.nodup_iff.mp nd)
        have ndq := List.nodup_cons.mp (List.nodup_append.mp (h4.nodup_iff.mp nd)).1
        have hp : p < h.next := hlt p (g4.mem_iff.mpr (by simp))
        have hsub : ∀ x ∈ q :: lq, x < h.next := fun x hx => hlt x (h4.mem_iff.mpr (by simp only [List.mem_append]; exact .inl hx))
        have hlenq := holdsAll_length hallq
        have hcase : p ∉ lq ∧ ((q ≠ p ∧ q < h.next ∧ h.cell q = some (.arr ([] ++ us))) ∨ (q = p ∧ resized vs us.length = us)) := by
          by_cases e : src = dst
          · subst e
            rw [hx] at hy
            rw [h1] at g1
            cases g1
            rw [h2] at g2
            cases g2
            rw [hc] at hcq
            cases hcq
            exact ⟨ndq.1, .inr ⟨rfl, by simp [resized]⟩⟩
          · have hsep : p ∉ q :: lq := separate src dst H nd h2' h3' g2' ⟨_, _, g3'⟩ (fun hq => hpre ⟨hq, e⟩)
            simp only [List.mem_cons, not_or] at hsep
            exact ⟨hsep.2, .inl ⟨fun e => hsep.1 e.symm, hsub q (by simp), hcq⟩⟩
        obtain ⟨hpq, hcase⟩ := hcase
        obtain ⟨g', ws', lw', k1, k2, k3, k4, k5, k6, k7, k8, k9⟩ := assignElems_spec (h0 := h) (p := p) (q := q) hp (us := us) (ts := xs) (ls := lq) (us1 := [])
          (g := h.put p (.arr (resized vs us.length))) (ws := []) (rest := resized vs us.length) (ts1 := []) (lw := []) hallq ndq.2
          (fun x hx => ⟨hsub x (by simp [hx]), fun e => hpq (e ▸ hx)⟩) hcase (put_cell _ _ _) rfl (by simp [resized]; omega) (le_refl _)
          (fun x _ hx => put_other _ _ hx) (hf.put hp _) .nil List.nodup_nil (by simp)
        simp only [List.length_nil, List.nil_append] at k1 k6
        have hcells := cells_set hy (.arr xs)
        obtain ⟨c1, c2⟩ := (counts_put (h := h) (p := p) (by simp [hc]) (.arr (resized vs us.length))).trans k9
        refine ⟨g', by simp only [stepA, arrayAt_ok g1 g2 hc, arrayAt_ok h1 h2 hcq, Res.ok_bind, k1],
          replace_sim H nd hlt g2 g4 g5 g6 g7 g8 k3 k4 k5 k2 k6 k7 (fun x hx => .inr (k8 x hx)), ?_, ?_⟩
        · simp only [allocatedA, elemCells_eq hx, List.drop_zero]
          omega
        · simp only [lostA, elemCells_eq hy, List.drop_zero]
          simp only [Tree.cells] at hcells
          omega
      | _ => simp at ht
    | _ => simp at ht
  | assignObject dst src => simp [apstep] at ht

theorem stepA_sim {h : Heap} {t : Tree} (I : Inv h t) {op : AOp} {t' : Tree} {r : Rep} (ht : apstep t op = some (t', r)) :
    ∃ h', stepA h op = .ok (h', r) ∧ Inv h' t' := by
  obtain ⟨h', e, R⟩ := stepA_ran I ht
  exact ⟨h', e, R.1⟩

theorem runA_ran {h : Heap} {t : Tree} (I : Inv h t) : ∀ {ops : List AOp} {t' : Tree} {rs : List Rep}, apruns t ops = some (t', rs) →
    ∃ h', runA h ops = .ok (h', rs) ∧ Ran h t h' t' (totalA allocatedA t ops) (totalA lostA t ops) := by
  intro ops
  induction ops generalizing h t with
  | nil =>
    intro t' rs ht
    simp only [apruns, Option.some.injEq, Prod.mk.injEq] at ht
    obtain ⟨rfl, rfl⟩ := ht
    exact ⟨h, rfl, .refl I⟩
  | cons op ops ih =>
    intro t' rs ht
    simp only [apruns, bind, Option.bind_eq_some_iff, Option.some.injEq, Prod.mk.injEq] at ht
    obtain ⟨⟨t1, r1⟩, h1, ⟨t2, rs2⟩, h2, rfl, rfl⟩ := ht
    obtain ⟨ha, e1, R1⟩ := stepA_ran I h1
    obtain ⟨hb, e2, R2⟩ := ih R1.1 h2
    refine ⟨hb, by simp [runA, e1, e2], ?_⟩
    simp only [totalA, h1]
    exact R1.trans R2

theorem runA_sim {h : Heap} {t : Tree} (I : Inv h t) {ops : List AOp} {t' : Tree} {rs : List Rep} (ht : apruns t ops = some (t', rs)) :
    ∃ h', runA h ops = .ok (h', rs) ∧ Inv h' t' := by
  obtain ⟨h', e, R⟩ := runA_ran I ht
  exact ⟨h', e, R.1⟩

end Eni.Owner
