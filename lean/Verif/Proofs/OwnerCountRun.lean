import Verif.Proofs.OwnerCount
/-!
# Counting heap objects in programs
-/
namespace Eni.Owner
open Spec

theorem cellsAt_eq {t : Tree} {p : Path} {x : Tree} (h : t.get p = some x) : t.cellsAt p = x.cells := by simp [Tree.cellsAt, h]
theorem releasedAt_eq {t : Tree} {p : Path} {x : Tree} (h : t.get p = some x) : t.releasedAt p = x.released := by simp [Tree.releasedAt, h]

theorem get_mem {t : Tree} {dst : Path} {ks : List Bytes} {ts : List Tree} (h : t.get dst = some (.obj ks ts)) (k : Bytes) :
    t.get (dst ++ [.mem k]) = if k ∈ ks then ts[ks.idxOf k]? else none := by
  rw [get_append, h]
  by_cases hk : k ∈ ks
  · simp only [Option.bind_eq_bind, Option.bind_some, Tree.get, Tree.pos, hk, if_true, Tree.kids]
    cases ts[ks.idxOf k]? <;> rfl
  · simp [Tree.get, Tree.pos, hk]

theorem delegate_counts {h h' : Heap} {dst : Path} {ty : Ty} {c : Cell} {r : Rep} (hs : delegate h dst ty c = .ok (h', r)) : Counts h h' 1 0 := by
  unfold delegate at hs
  obtain ⟨l, e1, hs⟩ := Res.bind_eq_ok.mp hs
  obtain ⟨v, e2, hs⟩ := Res.bind_eq_ok.mp hs
  split at hs
  · obtain ⟨h2, e3, hs⟩ := Res.bind_eq_ok.mp hs
    simp only [Res.ok.injEq, Prod.mk.injEq] at hs
    obtain ⟨rfl, _⟩ := hs
    exact (counts_alloc h c).trans (counts_write e3)
  · simp only [Res.ok.injEq, Prod.mk.injEq] at hs
    obtain ⟨rfl, _⟩ := hs
    exact counts_alloc h c

theorem new_counts {h h' : Heap} {c : Cell} {v : Val} {r : Rep}
    (hs : (declare (h.alloc c).1 v >>= fun h => (.ok (h, Rep.done) : Res (Heap × Rep))) = .ok (h', r)) : Counts h h' 1 0 := by
  obtain ⟨h2, e3, hs⟩ := Res.bind_eq_ok.mp hs
  simp only [Res.ok.injEq, Prod.mk.injEq] at hs
  obtain ⟨rfl, _⟩ := hs
  exact (counts_alloc h c).trans (counts_declare e3)

theorem step_counts {h h' : Heap} {t : Tree} (I : Inv h t) {op : Op} {t' : Tree} {r : Rep} (ht : pstep t op = some (t', r))
    (hs : step h op = .ok (h', r)) : Counts h h' (allocated t op) (releasedBy t op) := by
  cases op with
  | undef =>
    simp only [step] at hs
    obtain ⟨h2, e3, hs⟩ := Res.bind_eq_ok.mp hs
    simp only [Res.ok.injEq, Prod.mk.injEq] at hs
    obtain ⟨rfl, _⟩ := hs
    exact counts_declare e3
  | bool b =>
    simp only [step] at hs
    obtain ⟨h2, e3, hs⟩ := Res.bind_eq_ok.mp hs
    simp only [Res.ok.injEq, Prod.mk.injEq] at hs
    obtain ⟨rfl, _⟩ := hs
    exact counts_declare e3
  | int z => exact new_counts hs
  | str s => exact new_counts hs
  | array => exact new_counts hs
  | object => exact new_counts hs
  | copy src =>
    obtain ⟨l, H, nd, hlt, hf⟩ := I
    simp only [pstep] at ht
    by_cases hn : src = []
    · simp [hn] at ht
    simp only [hn, if_false, bind, Option.bind_eq_some_iff, Option.some.injEq, Prod.mk.injEq] at ht
    obtain ⟨x, hx, rfl, rfl⟩ := ht
    obtain ⟨loc, w, lu, lr, cc, h1, h2, h2', h3, h4, _⟩ := focus src H nd hn hx
    have hsub : ∀ q ∈ lu, q < h.next := fun q hq => hlt q (h4.mem_iff.mpr (by simp [hq]))
    have ndu := (List.nodup_append.mp (h4.nodup_iff.mp nd)).1
    simp only [step, h1, h2, Res.ok_bind] at hs
    obtain ⟨⟨ha, wa⟩, e1, hs⟩ := Res.bind_eq_ok.mp hs
    obtain ⟨hb, e2, hs⟩ := Res.bind_eq_ok.mp hs
    simp only [Res.ok.injEq, Prod.mk.injEq] at hs
    obtain ⟨rfl, _⟩ := hs
    have k1 := copy_counts h.fuel h ha w wa x lu (by have := length_le_of_lt ndu hsub; simp [Heap.fuel]; omega) h3 hsub e1
    have := k1.trans (counts_declare e2)
    simpa [allocated, releasedBy, cellsAt_eq hx] using this
  | move src =>
    simp only [step] at hs
    obtain ⟨l, e1, hs⟩ := Res.bind_eq_ok.mp hs
    obtain ⟨v, e2, hs⟩ := Res.bind_eq_ok.mp hs
    obtain ⟨ha, e3, hs⟩ := Res.bind_eq_ok.mp hs
    obtain ⟨hb, e4, hs⟩ := Res.bind_eq_ok.mp hs
    simp only [Res.ok.injEq, Prod.mk.injEq] at hs
    obtain ⟨rfl, _⟩ := hs
    exact (counts_write e3).trans (counts_declare e4)
  | assign dst src =>
    obtain ⟨l, H, nd, hlt, hf⟩ := I
    simp only [pstep] at ht
    by_cases hn : dst = [] ∨ src = []
    · simp [hn] at ht
    rw [if_neg hn] at ht
    simp only [not_or] at hn
    simp only [bind, Option.bind_eq_some_iff] at ht
    obtain ⟨y, hy, x, hx, ht⟩ := ht
    split at ht
    · cases ht
    rename_i hpre
    obtain ⟨loc, w, lu, lr, cc, h1, h2, h2', h3, h4, _⟩ := focus src H nd hn.2 hx
    obtain ⟨d, wd, ld, lr', cd, g1, g2, g2', g3, g4, g5, g6, g7, hwk, hww, g8⟩ := focus dst H nd hn.1 hy
    have hsub : ∀ q ∈ lu, q < h.next := fun q hq => hlt q (h4.mem_iff.mpr (by simp [hq]))
    simp only [step, h1, h2, g1, Res.ok_bind] at hs
    obtain ⟨ha, e1, hs⟩ := Res.bind_eq_ok.mp hs
    simp only [Res.ok.injEq, Prod.mk.injEq] at hs
    obtain ⟨rfl, _⟩ := hs
    have := assignVal_counts h3 (List.nodup_append.mp (h4.nodup_iff.mp nd)).1 hsub (place_sep H nd hn.1 g1 h2' h3 hpre) e1
    simpa [allocated, releasedBy, cellsAt_eq hx] using this
  | destroy i =>
    obtain ⟨l, H, nd, hlt, hf⟩ := I
    simp only [pstep, bind, Option.bind_eq_some_iff, Option.some.injEq, Prod.mk.injEq] at ht
    obtain ⟨y, hy, rfl, rfl⟩ := ht
    obtain ⟨d, wd, ld, lr, cd, g1, g2, g2', g3, g4, g5, g6, g7, hwk, hww, g8⟩ := focus [.elem i] H nd (by simp) hy
    obtain ⟨n1, n2, n3⟩ := List.nodup_append.mp (g4.nodup_iff.mp nd)
    have hsub : ∀ q ∈ ld, q < h.next := fun q hq => hlt q (g4.mem_iff.mpr (by simp [hq]))
    simp only [step, g1, g2, Res.ok_bind] at hs
    obtain ⟨ha, e1, hs⟩ := Res.bind_eq_ok.mp hs
    obtain ⟨hb, e2, hs⟩ := Res.bind_eq_ok.mp hs
    simp only [Res.ok.injEq, Prod.mk.injEq] at hs
    obtain ⟨rfl, _⟩ := hs
    have k := destroy_counts h.fuel h ha wd y ld (by have := length_le_of_lt n1 hsub; simp [Heap.fuel]; omega) g3 n1 hsub e1
    have := k.trans (counts_write e2)
    simpa [allocated, releasedBy, releasedAt_eq hy] using this
  | pushBack dst src =>
    obtain ⟨l, H, nd, hlt, hf⟩ := I
    simp only [pstep] at ht
    by_cases hn : dst = [] ∨ src = []
    · simp [hn] at ht
    rw [if_neg hn] at ht
    simp only [not_or] at hn
    simp only [bind, Option.bind_eq_some_iff] at ht
    obtain ⟨y, hy, x, hx, ht⟩ := ht
    obtain ⟨sl, w, lu, lrs, cc, h1, h2, h2', h3, h4, _⟩ := focus src H nd hn.2 hx
    obtain ⟨d, wd, ld, lr, cd, g1, g2, g2', g3, g4, g5, g6, g7, hwk, hww, g8⟩ := focus dst H nd hn.1 hy
    have g3' := g3
    cases g3 with
    | @arr p vs ts lk hc hall =>
      simp only at ht
      split at ht
      · cases ht
      rename_i hpre
      simp only [not_or] at hpre
      have hsub : ∀ q ∈ lu, q < h.next := fun q hq => hlt q (h4.mem_iff.mpr (by simp [hq]))
      have hsep : p ∉ lu := separate src dst H nd h2' h3 g2' ⟨_, _, g3'⟩ hpre.1
      simp only [step, h1, h2, g1, g2, Res.ok_bind, if_true, Heap.deref, hc] at hs
      split at hs
      · cases hs
      obtain ⟨ha, e1, hs⟩ := Res.bind_eq_ok.mp hs
      simp only [Res.ok.injEq, Prod.mk.injEq] at hs
      obtain ⟨rfl, _⟩ := hs
      have k := assignVal_counts (h := h.put p (.arr (vs ++ [⟨.undef, .raw⟩]))) (holds_mono h3 fun q hq => put_other _ _ (fun e => hsep (e ▸ hq))) (List.nodup_append.mp (h4.nodup_iff.mp nd)).1
        hsub hsep e1
      have := (counts_put (by simp [hc]) (.arr (vs ++ [⟨.undef, .raw⟩]))).trans k
      simpa [allocated, releasedBy, cellsAt_eq hx] using this
    | _ => simp at ht
  | popBack dst =>
    obtain ⟨l, H, nd, hlt, hf⟩ := I
    simp only [pstep] at ht
    by_cases hn : dst = []
    · simp [hn] at ht
    rw [if_neg hn] at ht
    simp only [bind, Option.bind_eq_some_iff] at ht
    obtain ⟨y, hy, ht⟩ := ht
    obtain ⟨d, wd, ld, lr, cd, g1, g2, g2', g3, g4, g5, g6, g7, hwk, hww, g8⟩ := focus dst H nd hn hy
    cases g3 with
    | @arr p vs ts lk hc hall =>
      simp only at ht
      rcases List.eq_nil_or_concat ts with rfl | ⟨ts0, x, rfl⟩
      · simp at ht
      rw [List.concat_eq_append] at *
      have hlen := holdsAll_length hall
      obtain ⟨vs0, e, rfl⟩ : ∃ vs0 e, vs = vs0 ++ [e] := by
        rcases List.eq_nil_or_concat vs with rfl | ⟨vs0, e, he⟩
        · simp at hlen
        · exact ⟨vs0, e, by simpa using he⟩
      obtain ⟨n1, n2, n3⟩ := List.nodup_append.mp (g4.nodup_iff.mp nd)
      have hsubd : ∀ q ∈ p :: lk, q < h.next := fun q hq => hlt q (g4.mem_iff.mpr (by simp only [List.mem_append]; exact .inl hq))
      have hpk : p ∉ lk := (List.nodup_cons.mp n1).1
      obtain ⟨v, l1, l2, a1, a2, a3, _, a5, _⟩ := holdsAll_focus hall (i := ts0.length) (t := x) (by simp)
      have hl0 : vs0.length = ts0.length := by simpa using hlen
      have hv : v = e := by
        rw [← hl0] at a1
        simpa using a1.symm
      subst hv
      have hnd12 := a3.nodup_iff.mp (List.nodup_cons.mp n1).2
      have hl1 : ∀ q ∈ l1, q ∈ lk := fun q hq => a3.mem_iff.mpr (by simp [hq])
      have hput : ∀ q ∈ lk, (h.put p (.arr vs0)).cell q = h.cell q := fun q hq => put_other _ _ (fun e => hpk (e ▸ hq))
      have A2 : Holds (h.put p (.arr vs0)) v x l1 := holds_mono a2 fun q hq => hput q (hl1 q hq)
      have hlt1 : ∀ q ∈ l1, q < (h.put p (.arr vs0)).next := fun q hq => by
        rw [put_next]; exact hsubd q (by simp [hl1 q hq])
      simp only [step, g1, g2, Res.ok_bind, if_true, Heap.deref, hc, List.getLast?_append, List.getLast?_singleton, Option.some_or, List.dropLast_concat] at hs
      obtain ⟨⟨ha, wa⟩, e1, hs⟩ := Res.bind_eq_ok.mp hs
      obtain ⟨hb, e2, hs⟩ := Res.bind_eq_ok.mp hs
      simp only [Res.ok.injEq, Prod.mk.injEq] at hs
      obtain ⟨rfl, _⟩ := hs
      have k1 := copy_counts h.fuel _ ha v wa x l1
        (by have := length_le_of_lt (List.nodup_append.mp hnd12).1 hlt1; rw [put_next] at this; simp [Heap.fuel]; omega) A2 hlt1 e1
      have := ((counts_put (by simp [hc]) (.arr vs0)).trans k1).trans (counts_declare e2)
      simpa [allocated, releasedBy, Tree.cellsLast, hy] using this
    | _ => simp at ht
  | setMember dst k src =>
    obtain ⟨l, H, nd, hlt, hf⟩ := I
    simp only [pstep] at ht
    by_cases hn : dst = [] ∨ src = []
    · simp [hn] at ht
    rw [if_neg hn] at ht
    simp only [not_or] at hn
    simp only [bind, Option.bind_eq_some_iff] at ht
    obtain ⟨y, hy, x, hx, ht⟩ := ht
    split at ht
    · cases ht
    rename_i hpre
    obtain ⟨sl, w, lu, lrs, cc, h1, h2, h2', h3, h4, _⟩ := focus src H nd hn.2 hx
    obtain ⟨d, wd, ld, lr, cd, g1, g2, g2', g3, g4, g5, g6, g7, hwk, hww, g8⟩ := focus dst H nd hn.1 hy
    have g3' := g3
    cases g3 with
    | @obj p ks vs ts lk hc hkl hall =>
      have hsub : ∀ q ∈ lu, q < h.next := fun q hq => hlt q (h4.mem_iff.mpr (by simp [hq]))
      have hsep : p ∉ lu := separate src dst H nd h2' h3 g2' ⟨_, _, g3'⟩ hpre
      have ndu := (List.nodup_append.mp (h4.nodup_iff.mp nd)).1
      simp only [step, h1, h2, g1, g2, Res.ok_bind, if_true, Heap.deref, hc] at hs
      split at hs
      · obtain ⟨ha, e1, hs⟩ := Res.bind_eq_ok.mp hs
        simp only [Res.ok.injEq, Prod.mk.injEq] at hs
        obtain ⟨rfl, _⟩ := hs
        have := assignVal_counts h3 ndu hsub (d := ⟨p, ks.idxOf k⟩) hsep e1
        simpa [allocated, releasedBy, cellsAt_eq hx] using this
      · obtain ⟨ha, e1, hs⟩ := Res.bind_eq_ok.mp hs
        simp only [Res.ok.injEq, Prod.mk.injEq] at hs
        obtain ⟨rfl, _⟩ := hs
        have k1 := assignVal_counts (h := h.put p (.obj (ks ++ [k]) (vs ++ [⟨.undef, .null⟩]))) (holds_mono h3 fun q hq => put_other _ _ (fun e => hsep (e ▸ hq))) ndu hsub (d := ⟨p, vs.length⟩) hsep e1
        have := (counts_put (by simp [hc]) (.obj (ks ++ [k]) (vs ++ [⟨.undef, .null⟩]))).trans k1
        simpa [allocated, releasedBy, cellsAt_eq hx] using this
    | _ => simp at ht
  | eraseMember dst k =>
    obtain ⟨l, H, nd, hlt, hf⟩ := I
    simp only [pstep] at ht
    by_cases hn : dst = []
    · simp [hn] at ht
    rw [if_neg hn] at ht
    simp only [bind, Option.bind_eq_some_iff] at ht
    obtain ⟨y, hy, ht⟩ := ht
    obtain ⟨d, wd, ld, lr, cd, g1, g2, g2', g3, g4, g5, g6, g7, hwk, hww, g8⟩ := focus dst H nd hn hy
    cases g3 with
    | @obj p ks vs ts lk hc hkl hall =>
      obtain ⟨n1, n2, n3⟩ := List.nodup_append.mp (g4.nodup_iff.mp nd)
      have hsubd : ∀ q ∈ p :: lk, q < h.next := fun q hq => hlt q (g4.mem_iff.mpr (by simp only [List.mem_append]; exact .inl hq))
      simp only [step, g1, g2, Res.ok_bind, if_true, Heap.deref, hc] at hs
      split at hs
      · rename_i hk
        have hi : ks.idxOf k < ts.length := by rw [← hkl]; exact List.idxOf_lt_length_of_mem hk
        have hm : ts[ks.idxOf k]? = some ts[ks.idxOf k] := List.getElem?_eq_getElem hi
        obtain ⟨v0, l1, l2, a1, a2, a3, _, a5, _⟩ := holdsAll_focus hall hm
        have hl1 : ∀ q ∈ l1, q ∈ lk := fun q hq => a3.mem_iff.mpr (by simp [hq])
        obtain ⟨m1, m2, m3⟩ := List.nodup_append.mp (a3.nodup_iff.mp (List.nodup_cons.mp n1).2)
        have hsub1 : ∀ q ∈ l1, q < h.next := fun q hq => hsubd q (by simp [hl1 q hq])
        have hfuel : l1.length < h.fuel := by
          have := length_le_of_lt m1 hsub1
          simp [Heap.fuel]; omega
        have hread : readAt h ⟨p, ks.idxOf k⟩ = .ok v0 := by simp [readAt, hc, Cell.kids, a1]
        obtain ⟨h2, e1, e2, e3, e4⟩ := destroy_spec h.fuel h v0 _ l1 hfuel a2 m1
        simp only [hread, Res.ok_bind, e1, Res.ok.injEq, Prod.mk.injEq] at hs
        obtain ⟨rfl, _⟩ := hs
        have k1 := destroy_counts h.fuel h h2 v0 _ l1 hfuel a2 m1 hsub1 e1
        have hp1 : p ∉ l1 := fun hq => (List.nodup_cons.mp n1).1 (hl1 p hq)
        have := k1.trans (counts_put (p := p) (by rw [e3 p hp1, hc]; simp) (.obj (ks.eraseIdx (ks.idxOf k)) (vs.eraseIdx (ks.idxOf k))))
        have hg : t.get (dst ++ [.mem k]) = some ts[ks.idxOf k] := by rw [get_mem hy, if_pos hk, hm]
        simpa [allocated, releasedBy, releasedAt_eq hg] using this
      · rename_i hk
        simp only [Res.ok.injEq, Prod.mk.injEq] at hs
        obtain ⟨rfl, _⟩ := hs
        have hg : t.get (dst ++ [.mem k]) = none := by rw [get_mem hy, if_neg hk]
        have : releasedBy t (.eraseMember dst k) = 0 := by simp [releasedBy, Tree.releasedAt, hg]
        rw [this]
        exact .refl h
    | _ => simp at ht
  | delegateInt dst z => exact delegate_counts hs
  | delegateArray dst => exact delegate_counts hs
  | delegateObject dst => exact delegate_counts hs
  | dropInt i =>
    obtain ⟨l, H, nd, hlt, hf⟩ := I
    simp only [pstep, bind, Option.bind_eq_some_iff] at ht
    obtain ⟨y, hy, ht⟩ := ht
    obtain ⟨d, wd, ld, lr, cd, g1, g2, g2', g3, g4, g5, g6, g7, hwk, hww, g8⟩ := focus [.elem i] H nd (by simp) hy
    cases g3 with
    | @int p z hc =>
      simp only [step, g1, g2, Res.ok_bind, if_true, Heap.deref, hc] at hs
      obtain ⟨ha, e1, hs⟩ := Res.bind_eq_ok.mp hs
      have hd : destroy ha.fuel ha ⟨.int, .ptr p⟩ = .ok ha := by simp [Heap.fuel, destroy]
      simp only [hd, Res.ok_bind] at hs
      obtain ⟨hb, e2, hs⟩ := Res.bind_eq_ok.mp hs
      simp only [Res.ok.injEq, Prod.mk.injEq] at hs
      obtain ⟨rfl, _⟩ := hs
      obtain ⟨a, b⟩ := live_free (hlt p (g4.mem_iff.mpr (by simp))) e1
      have k : Counts h ha 0 1 := ⟨b, a⟩
      exact k.trans (counts_write e2)
    | _ => simp at ht

/-- objects have as many keys as values -/
def KeysFit (t : Tree) : Prop := ∀ dst ks ts, dst ≠ [] → t.get dst = some (.obj ks ts) → ks.length = ts.length

theorem Inv.keysFit {h : Heap} {t : Tree} (I : Inv h t) : KeysFit t := by
  intro dst ks ts hd hg
  obtain ⟨l, H, nd, hlt, hf⟩ := I
  obtain ⟨d, wd, ld, lr, cd, g1, g2, g2', g3, _⟩ := focus dst H nd hd hg
  cases g3 with
  | obj _ hk _ => exact hk

theorem Inv.frame {h : Heap} {t : Tree} (I : Inv h t) : ∃ ts, t = .arr ts := by
  obtain ⟨l, H, _⟩ := I
  cases H with
  | arr _ _ => exact ⟨_, rfl⟩

/-- frames stay frames -/
theorem set_arr (ts : List Tree) (x : Tree) {p : Path} (hp : p ≠ []) : ∃ ts', (Tree.arr ts).set x p = .arr ts' := by
  cases p with
  | nil => exact absurd rfl hp
  | cons s ps =>
    simp only [Tree.set]
    split
    · exact ⟨ts, rfl⟩
    · split
      · exact ⟨ts, rfl⟩
      · exact ⟨_, rfl⟩

theorem delegated_cells {ts : List Tree} {dst : Path} {x : Tree} (hx : x.cells = 1) {t' : Tree} {r : Rep}
    (ht : pstep.delegated (.arr ts) dst x = some (t', r)) : t'.cells + (if isUndef (.arr ts) dst then 0 else 1) = (Tree.arr ts).cells + 1 := by
  unfold pstep.delegated at ht
  by_cases hd : dst = []
  · simp [hd] at ht
  simp only [hd, if_false, bind, Option.bind_eq_some_iff] at ht
  obtain ⟨u, hu, ht⟩ := ht
  cases u with
  | undef =>
    simp only [Option.some.injEq, Prod.mk.injEq] at ht
    obtain ⟨rfl, rfl⟩ := ht
    have := cells_set hu x
    simp only [Tree.cells] at this
    simp only [isUndef, hu, if_true, Tree.cells]
    omega
  | _ =>
    simp only [Option.some.injEq, Prod.mk.injEq] at ht
    obtain ⟨rfl, rfl⟩ := ht
    simp [isUndef, hu]

theorem pstep_cells {ts : List Tree} (hw : KeysFit (.arr ts)) {op : Op} {t' : Tree} {r : Rep} (ht : pstep (.arr ts) op = some (t', r)) :
    t'.cells + lostBy (.arr ts) op + releasedBy (.arr ts) op = (Tree.arr ts).cells + allocated (.arr ts) op := by
  cases op with
  | undef | bool | int | str | array | object =>
    simp only [pstep, Option.some.injEq, Prod.mk.injEq] at ht
    obtain ⟨rfl, rfl⟩ := ht
    rw [cells_declare]
    simp [lostBy, releasedBy, allocated, Tree.cells, Tree.cellsAll]
  | copy src =>
    simp only [pstep] at ht
    by_cases hn : src = []
    · simp [hn] at ht
    simp only [hn, if_false, bind, Option.bind_eq_some_iff, Option.some.injEq, Prod.mk.injEq] at ht
    obtain ⟨x, hx, rfl, rfl⟩ := ht
    rw [cells_declare]
    simp [lostBy, releasedBy, allocated, cellsAt_eq hx]
  | move src =>
    simp only [pstep] at ht
    by_cases hn : src = []
    · simp [hn] at ht
    simp only [hn, if_false, bind, Option.bind_eq_some_iff, Option.some.injEq, Prod.mk.injEq] at ht
    obtain ⟨x, hx, rfl, rfl⟩ := ht
    have := cells_set hx .undef
    obtain ⟨ts', h'⟩ := set_arr ts .undef hn
    rw [h'] at this ⊢
    rw [cells_declare]
    simp only [lostBy, releasedBy, allocated, Tree.cells] at *
    omega
  | assign dst src =>
    simp only [pstep] at ht
    by_cases hn : dst = [] ∨ src = []
    · simp [hn] at ht
    rw [if_neg hn] at ht
    simp only [bind, Option.bind_eq_some_iff] at ht
    obtain ⟨y, hy, x, hx, ht⟩ := ht
    split at ht
    · cases ht
    simp only [Option.some.injEq, Prod.mk.injEq] at ht
    obtain ⟨rfl, rfl⟩ := ht
    have := cells_set hy x
    simp only [lostBy, releasedBy, allocated, cellsAt_eq hx, cellsAt_eq hy]
    omega
  | destroy i =>
    simp only [pstep, bind, Option.bind_eq_some_iff, Option.some.injEq, Prod.mk.injEq] at ht
    obtain ⟨y, hy, rfl, rfl⟩ := ht
    have := cells_set hy .undef
    have h2 := released_le y
    simp only [lostBy, releasedBy, allocated, releasedAt_eq hy, cellsAt_eq hy]
    simp only [Tree.cells] at this ⊢
    omega
  | pushBack dst src =>
    simp only [pstep] at ht
    by_cases hn : dst = [] ∨ src = []
    · simp [hn] at ht
    rw [if_neg hn] at ht
    simp only [bind, Option.bind_eq_some_iff] at ht
    obtain ⟨y, hy, x, hx, ht⟩ := ht
    cases y with
    | arr us =>
      simp only at ht
      split at ht
      · cases ht
      simp only [Option.some.injEq, Prod.mk.injEq] at ht
      obtain ⟨rfl, rfl⟩ := ht
      have := cells_set hy (.arr (us ++ [x]))
      simp only [lostBy, releasedBy, allocated, cellsAt_eq hx]
      simp only [Tree.cells, cellsAll_append, Tree.cellsAll] at this ⊢
      omega
    | _ => simp at ht
  | popBack dst =>
    simp only [pstep] at ht
    by_cases hn : dst = []
    · simp [hn] at ht
    rw [if_neg hn] at ht
    simp only [bind, Option.bind_eq_some_iff] at ht
    obtain ⟨y, hy, ht⟩ := ht
    cases y with
    | arr us =>
      simp only at ht
      rcases List.eq_nil_or_concat us with rfl | ⟨us0, x, rfl⟩
      · simp at ht
      rw [List.concat_eq_append] at *
      simp only [List.getLast?_append, List.getLast?_singleton, Option.some_or, List.dropLast_concat, Option.some.injEq, Prod.mk.injEq] at ht
      obtain ⟨rfl, rfl⟩ := ht
      have := cells_set hy (.arr us0)
      obtain ⟨ts', h'⟩ := set_arr ts (.arr us0) hn
      rw [h'] at this ⊢
      rw [cells_declare]
      simp only [lostBy, releasedBy, allocated, Tree.cellsLast, hy, List.getLast?_append, List.getLast?_singleton, Option.some_or]
      simp only [Tree.cells, cellsAll_append, Tree.cellsAll] at this ⊢
      omega
    | _ => simp at ht
  | setMember dst k src =>
    simp only [pstep] at ht
    by_cases hn : dst = [] ∨ src = []
    · simp [hn] at ht
    rw [if_neg hn] at ht
    simp only [not_or] at hn
    simp only [bind, Option.bind_eq_some_iff] at ht
    obtain ⟨y, hy, x, hx, ht⟩ := ht
    split at ht
    · cases ht
    cases y with
    | obj ks us =>
      have hkl := hw dst ks us hn.1 hy
      simp only at ht
      have hg := get_mem hy k
      by_cases hk : k ∈ ks
      · simp only [hk, if_true, Option.some.injEq, Prod.mk.injEq] at ht hg
        obtain ⟨rfl, rfl⟩ := ht
        have hi : ks.idxOf k < us.length := by rw [← hkl]; exact List.idxOf_lt_length_of_mem hk
        have hm : us[ks.idxOf k]? = some us[ks.idxOf k] := List.getElem?_eq_getElem hi
        rw [hm] at hg
        have h1 := cells_set hy (.obj ks (us.set (ks.idxOf k) x))
        have h2 := cellsAll_set hm x
        simp only [lostBy, releasedBy, allocated, cellsAt_eq hx, cellsAt_eq hg]
        simp only [Tree.cells] at h1 ⊢
        omega
      · simp only [hk, if_false, Option.some.injEq, Prod.mk.injEq] at ht hg
        obtain ⟨rfl, rfl⟩ := ht
        have h1 := cells_set hy (.obj (ks ++ [k]) (us ++ [x]))
        have h0 : (Tree.arr ts).cellsAt (dst ++ [.mem k]) = 0 := by simp [Tree.cellsAt, hg]
        simp only [lostBy, releasedBy, allocated, cellsAt_eq hx, h0]
        simp only [Tree.cells, cellsAll_append, Tree.cellsAll] at h1 ⊢
        omega
    | _ => simp at ht
  | eraseMember dst k =>
    simp only [pstep] at ht
    by_cases hn : dst = []
    · simp [hn] at ht
    rw [if_neg hn] at ht
    simp only [bind, Option.bind_eq_some_iff] at ht
    obtain ⟨y, hy, ht⟩ := ht
    cases y with
    | obj ks us =>
      have hkl := hw dst ks us hn hy
      simp only at ht
      have hg := get_mem hy k
      by_cases hk : k ∈ ks
      · simp only [hk, if_true, Option.some.injEq, Prod.mk.injEq] at ht hg
        obtain ⟨rfl, rfl⟩ := ht
        have hi : ks.idxOf k < us.length := by rw [← hkl]; exact List.idxOf_lt_length_of_mem hk
        have hm : us[ks.idxOf k]? = some us[ks.idxOf k] := List.getElem?_eq_getElem hi
        rw [hm] at hg
        have h1 := cells_set hy (.obj (ks.eraseIdx (ks.idxOf k)) (us.eraseIdx (ks.idxOf k)))
        have h2 := cellsAll_eraseIdx hm
        have h3 := released_le us[ks.idxOf k]
        simp only [lostBy, releasedBy, allocated, releasedAt_eq hg, cellsAt_eq hg]
        simp only [Tree.cells] at h1 ⊢
        omega
      · simp only [hk, if_false, Option.some.injEq, Prod.mk.injEq] at ht hg
        obtain ⟨rfl, rfl⟩ := ht
        simp [lostBy, releasedBy, allocated, Tree.cellsAt, Tree.releasedAt, hg]
    | _ => simp at ht
  | delegateInt dst z =>
    have := delegated_cells (x := .int z) rfl ht
    simp only [lostBy, releasedBy, allocated]
    omega
  | delegateArray dst =>
    have := delegated_cells (x := .arr []) rfl ht
    simp only [lostBy, releasedBy, allocated]
    omega
  | delegateObject dst =>
    have := delegated_cells (x := .obj [] []) rfl ht
    simp only [lostBy, releasedBy, allocated]
    omega
  | dropInt i =>
    simp only [pstep, bind, Option.bind_eq_some_iff] at ht
    obtain ⟨y, hy, ht⟩ := ht
    cases y with
    | int z =>
      simp only [Option.some.injEq, Prod.mk.injEq] at ht
      obtain ⟨rfl, rfl⟩ := ht
      have := cells_set hy .undef
      simp only [lostBy, releasedBy, allocated]
      simp only [Tree.cells] at this ⊢
      omega
    | _ => simp at ht

/-- A run with its numbers: `a` objects allocated, `k` lost. -/
def Ran (h : Heap) (t : Tree) (h' : Heap) (t' : Tree) (a k : Nat) : Prop :=
  Inv h' t' ∧ h'.next = h.next + a ∧ live h' + t.cells = live h + t'.cells + k

theorem Ran.trans {h1 h2 h3 : Heap} {t1 t2 t3 : Tree} {a k a' k' : Nat} (x : Ran h1 t1 h2 t2 a k) (y : Ran h2 t2 h3 t3 a' k') :
    Ran h1 t1 h3 t3 (a + a') (k + k') := by
  obtain ⟨_, x1, x2⟩ := x
  obtain ⟨i, y1, y2⟩ := y
  exact ⟨i, by omega, by omega⟩

theorem Ran.refl {h : Heap} {t : Tree} (I : Inv h t) : Ran h t h t 0 0 := ⟨I, rfl, by omega⟩

theorem step_ran {h : Heap} {t : Tree} (I : Inv h t) {op : Op} {t' : Tree} {r : Rep} (ht : pstep t op = some (t', r)) :
    ∃ h', step h op = .ok (h', r) ∧ Ran h t h' t' (allocated t op) (lostBy t op) := by
  obtain ⟨h', hs, I'⟩ := step_sim I ht
  obtain ⟨c1, c2⟩ := step_counts I ht hs
  refine ⟨h', hs, I', c1, ?_⟩
  obtain ⟨ts, rfl⟩ := I.frame
  have := pstep_cells I.keysFit ht
  omega

theorem run_ran {h : Heap} {t : Tree} (I : Inv h t) : ∀ {ops : List Op} {t' : Tree} {rs : List Rep}, pruns t ops = some (t', rs) →
    ∃ h', run h ops = .ok (h', rs) ∧ Ran h t h' t' (total allocated t ops) (total lostBy t ops) := by
  intro ops
  induction ops generalizing h t with
  | nil =>
    intro t' rs ht
    simp only [pruns, Option.some.injEq, Prod.mk.injEq] at ht
    obtain ⟨rfl, rfl⟩ := ht
    exact ⟨h, rfl, .refl I⟩
  | cons op ops ih =>
    intro t' rs ht
    simp only [pruns, bind, Option.bind_eq_some_iff, Option.some.injEq, Prod.mk.injEq] at ht
    obtain ⟨⟨t1, r1⟩, h1, ⟨t2, rs2⟩, h2, rfl, rfl⟩ := ht
    obtain ⟨ha, e1, R1⟩ := step_ran I h1
    obtain ⟨hb, e2, R2⟩ := ih R1.1 h2
    refine ⟨hb, by simp [run, e1, e2], ?_⟩
    simp only [total, h1]
    exact R1.trans R2

theorem live_init : live Heap.init = 1 := rfl

end Eni.Owner
