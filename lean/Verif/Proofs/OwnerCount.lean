import Verif.Spec.OwnerCount
import Verif.Proofs.JsonOwnerRun
/-!
# Counting heap objects
-/
namespace Eni.Owner
open Spec

/-! ### trees -/

theorem released_le (t : Tree) : t.released ≤ t.cells := by
  refine Tree.rec (motive_1 := fun t => t.released ≤ t.cells) (motive_2 := fun ts => Tree.releasedAll ts ≤ Tree.cellsAll ts)
    ?_ ?_ ?_ ?_ ?_ ?_ ?_ ?_ t
  · simp [Tree.released, Tree.cells]
  · simp [Tree.released, Tree.cells]
  · simp [Tree.released, Tree.cells]
  · simp [Tree.released, Tree.cells]
  · intro ts _; simp [Tree.released, Tree.cells]
  · intro ks ts ih; simp [Tree.released, Tree.cells]; exact ih
  · simp [Tree.releasedAll]
  · intro t ts h1 h2; simp [Tree.releasedAll, Tree.cellsAll]; omega

theorem cellsAll_append (a b : List Tree) : Tree.cellsAll (a ++ b) = Tree.cellsAll a + Tree.cellsAll b := by
  induction a with
  | nil => simp [Tree.cellsAll]
  | cons t a ih => simp only [List.cons_append, Tree.cellsAll, ih]; omega

theorem cellsAll_set {ts : List Tree} {i : Nat} {u : Tree} (h : ts[i]? = some u) (x : Tree) :
    Tree.cellsAll (ts.set i x) + u.cells = Tree.cellsAll ts + x.cells := by
  induction ts generalizing i with
  | nil => simp at h
  | cons t ts ih =>
    cases i with
    | zero =>
      simp only [List.getElem?_cons_zero, Option.some.injEq] at h
      subst h
      simp only [List.set_cons_zero, Tree.cellsAll]; omega
    | succ i =>
      simp only [List.getElem?_cons_succ] at h
      have := ih h
      simp only [List.set_cons_succ, Tree.cellsAll]; omega

theorem cellsAll_eraseIdx {ts : List Tree} {i : Nat} {u : Tree} (h : ts[i]? = some u) :
    Tree.cellsAll (ts.eraseIdx i) + u.cells = Tree.cellsAll ts := by
  induction ts generalizing i with
  | nil => simp at h
  | cons t ts ih =>
    cases i with
    | zero =>
      simp only [List.getElem?_cons_zero, Option.some.injEq] at h
      subst h
      simp only [List.eraseIdx_cons_zero, Tree.cellsAll]; omega
    | succ i =>
      simp only [List.getElem?_cons_succ] at h
      have := ih h
      simp only [List.eraseIdx_cons_succ, Tree.cellsAll]; omega

theorem cells_pos {t : Tree} {s : Step} {i : Nat} (h : t.pos s = some i) :
    t.cells = 1 + Tree.cellsAll t.kids ∧ ∀ ts, (t.withKids ts).cells = 1 + Tree.cellsAll ts := by
  cases t <;> cases s <;> simp [Tree.pos] at h <;> simp [Tree.kids, Tree.withKids, Tree.cells]

theorem get_append (t : Tree) (a b : Path) : t.get (a ++ b) = t.get a >>= fun u => u.get b := by
  induction a generalizing t with
  | nil => rfl
  | cons s a ih =>
    simp only [List.cons_append, Tree.get]
    cases hp : t.pos s with
    | none => rfl
    | some i =>
      cases hk : t.kids[i]? with
      | none => simp [hk]
      | some u => simp [hk, ih]

theorem cells_set {path : Path} : ∀ {t u : Tree}, t.get path = some u → ∀ x, (t.set x path).cells + u.cells = t.cells + x.cells := by
  induction path with
  | nil => intro t u h x; simp only [Tree.get, Option.some.injEq] at h; subst h; simp only [Tree.set]; omega
  | cons s ps ih =>
    intro t u h x
    simp only [Tree.get, bind, Option.bind_eq_some_iff] at h
    obtain ⟨i, hp, w, hk, hg⟩ := h
    obtain ⟨c1, c2⟩ := cells_pos hp
    simp only [Tree.set, hp, hk, c2]
    have := ih hg x
    have := cellsAll_set hk (w.set x ps)
    omega

theorem cells_declare (ts : List Tree) (x : Tree) : (Tree.declare (.arr ts) x).cells = (Tree.arr ts).cells + x.cells := by
  simp [Tree.declare, Tree.withKids, Tree.kids, Tree.cells, cellsAll_append, Tree.cellsAll]; omega

theorem holds_length {h : Heap} {v t l} (H : Holds h v t l) : l.length = t.cells := by
  refine Holds.rec (motive_1 := fun _ t l _ => l.length = t.cells) (motive_2 := fun _ ts l _ => l.length = Tree.cellsAll ts)
    ?_ ?_ ?_ ?_ ?_ ?_ ?_ ?_ H
  · simp [Tree.cells]
  · simp [Tree.cells]
  · intros; simp [Tree.cells]
  · intros; simp [Tree.cells]
  · intro p vs ts l _ _ ih; simp [Tree.cells, ih]; omega
  · intro p ks vs ts l _ _ _ ih; simp [Tree.cells, ih]; omega
  · simp [Tree.cellsAll]
  · intro v t l vs ts ls _ _ h1 h2; simp [Tree.cellsAll, h1, h2]

/-! ### heaps -/

theorem countP_point (f g : Nat → Bool) (p : Nat) (hne : ∀ q, q ≠ p → f q = g q) (hf : f p = true) (hg : g p = false) :
    ∀ n, p < n → (List.range n).countP g + 1 = (List.range n).countP f := by
  have hsame : ∀ n, n ≤ p → (List.range n).countP g = (List.range n).countP f := by
    intro n hn
    apply List.countP_congr
    intro q hq
    rw [hne q (by have := List.mem_range.mp hq; omega)]
  intro n
  induction n with
  | zero => omega
  | succ n ih =>
    intro hp
    rw [List.range_succ, List.countP_append, List.countP_append]
    by_cases e : n = p
    · subst e
      rw [hsame n (le_refl _)]
      simp [hf, hg]
    · have := ih (by omega)
      simp only [List.countP_singleton, hne n e]
      omega

theorem live_alloc (h : Heap) (c : Cell) : live (h.alloc c).1 = live h + 1 := by
  simp only [live, Heap.alloc, List.range_succ, List.countP_append, List.countP_singleton]
  congr 1
  apply List.countP_congr
  intro q hq
  have := List.mem_range.mp hq
  rw [if_neg (by omega)]

theorem live_put {h : Heap} {p : Nat} (hp : h.cell p ≠ none) (c : Cell) : live (h.put p c) = live h := by
  simp only [live, Heap.put]
  apply List.countP_congr
  intro q _
  by_cases e : q = p
  · subst e
    cases hc : h.cell q with
    | none => exact absurd hc hp
    | some _ => simp
  · simp [e]

theorem live_free {h h' : Heap} {p : Nat} (hp : p < h.next) (hf : h.free p = .ok h') : live h' + 1 = live h ∧ h'.next = h.next := by
  unfold Heap.free at hf
  cases hc : h.cell p with
  | none => simp [hc] at hf
  | some c =>
    simp only [hc, Res.ok.injEq] at hf
    subst hf
    refine ⟨?_, rfl⟩
    simp only [live]
    exact countP_point _ _ p (fun q hq => by simp [hq]) (by simp [hc]) (by simp) _ hp

/-- What an action did to the numbers: `a` objects allocated, `r` released. -/
def Counts (h h' : Heap) (a r : Nat) : Prop := h'.next = h.next + a ∧ live h' + r = live h + a

theorem Counts.refl (h : Heap) : Counts h h 0 0 := ⟨rfl, rfl⟩

theorem Counts.trans {h1 h2 h3 : Heap} {a r a' r' : Nat} (x : Counts h1 h2 a r) (y : Counts h2 h3 a' r') : Counts h1 h3 (a + a') (r + r') := by
  obtain ⟨x1, x2⟩ := x
  obtain ⟨y1, y2⟩ := y
  exact ⟨by omega, by omega⟩

theorem counts_alloc (h : Heap) (c : Cell) : Counts h (h.alloc c).1 1 0 := ⟨rfl, by rw [live_alloc]⟩

theorem counts_put {h : Heap} {p : Nat} (hp : h.cell p ≠ none) (c : Cell) : Counts h (h.put p c) 0 0 := ⟨rfl, by rw [live_put hp]⟩

theorem counts_write {h h' : Heap} {d : Loc} {v : Val} (hw : writeAt h d v = .ok h') : Counts h h' 0 0 := by
  unfold writeAt at hw
  cases hc : h.cell d.addr with
  | none => simp [hc] at hw
  | some c =>
    simp only [hc] at hw
    split at hw
    · cases hw; exact counts_put (by simp [hc]) _
    · cases hw

theorem counts_declare {h h' : Heap} {v : Val} (hw : declare h v = .ok h') : Counts h h' 0 0 := by
  unfold declare at hw
  split at hw
  · rename_i vs hc
    cases hw
    exact counts_put (by simp [hc]) _
  · cases hw

theorem copyList_counts (cp : Heap → Val → Res (Heap × Val)) : ∀ (vs : List Val) {h h' : Heap} {ts l vs'}, HoldsAll h vs ts l → (∀ q ∈ l, q < h.next) →
    (∀ (h : Heap) v t l1, l1.length ≤ l.length → Holds h v t l1 → (∀ q ∈ l1, q < h.next) → Copied h v t (cp h v)) →
    (∀ (h h' : Heap) v v' t l1, l1.length ≤ l.length → Holds h v t l1 → (∀ q ∈ l1, q < h.next) → cp h v = .ok (h', v') → Counts h h' t.cells 0) →
    copyList cp h vs = .ok (h', vs') → Counts h h' (Tree.cellsAll ts) 0 := by
  intro vs
  induction vs with
  | nil =>
    intro h h' ts l vs' H _ _ _ hc
    cases H
    simp only [copyList, Res.ok.injEq, Prod.mk.injEq] at hc
    obtain ⟨rfl, _⟩ := hc
    exact .refl _
  | cons v vs ih =>
    intro h h' ts l vs' H hlt hsp hcnt hc
    cases H with
    | @cons _ t l1 _ ts ls H1 H2 =>
      simp only [copyList] at hc
      obtain ⟨⟨ha, va⟩, e1, hc⟩ := Res.bind_eq_ok.mp hc
      obtain ⟨⟨hb, vb⟩, e2, hc⟩ := Res.bind_eq_ok.mp hc
      simp only [Res.ok.injEq, Prod.mk.injEq] at hc
      obtain ⟨rfl, _⟩ := hc
      have k1 := hcnt h ha v va t l1 (by simp) H1 (fun q hq => hlt q (by simp [hq])) e1
      obtain ⟨h2, v2, l2, f1, f2, f3, f4, f5, f6, f7⟩ := hsp h v t l1 (by simp) H1 (fun q hq => hlt q (by simp [hq]))
      rw [e1] at f1
      cases f1
      have k2 := ih (holdsAll_mono H2 fun q hq => f3.2 q (hlt q (by simp [hq]))) (fun q hq => lt_of_lt_of_le (hlt q (by simp [hq])) f3.1)
        (fun h v t l1 hl => hsp h v t l1 (by simp; omega)) (fun h h' v v' t l1 hl => hcnt h h' v v' t l1 (by simp; omega)) e2
      exact k1.trans k2

theorem copy_counts : ∀ (fuel : Nat) (h h' : Heap) (v v' : Val) (t : Tree) (l : List Nat), l.length < fuel → Holds h v t l → (∀ q ∈ l, q < h.next) →
    copy fuel h v = .ok (h', v') → Counts h h' t.cells 0 := by
  intro fuel
  induction fuel with
  | zero => intro h h' v v' t l hl; omega
  | succ fuel ih =>
    intro h h' v v' t l hl H hlt hc
    cases H with
    | undef => simp only [copy, Res.ok.injEq, Prod.mk.injEq] at hc; obtain ⟨rfl, _⟩ := hc; exact .refl _
    | bool => simp only [copy, Res.ok.injEq, Prod.mk.injEq] at hc; obtain ⟨rfl, _⟩ := hc; exact .refl _
    | @int p z hp =>
      simp only [copy, Heap.deref, hp, Res.ok_bind, Res.ok.injEq, Prod.mk.injEq] at hc
      obtain ⟨rfl, _⟩ := hc
      exact counts_alloc h _
    | @str p z hp =>
      simp only [copy, Heap.deref, hp, Res.ok_bind, Res.ok.injEq, Prod.mk.injEq] at hc
      obtain ⟨rfl, _⟩ := hc
      exact counts_alloc h _
    | @arr p vs ts l1 hp hall =>
      simp only [List.length_cons] at hl
      simp only [copy, Heap.deref, hp, Res.ok_bind] at hc
      obtain ⟨⟨ha, va⟩, e1, hc⟩ := Res.bind_eq_ok.mp hc
      simp only [Res.ok.injEq, Prod.mk.injEq] at hc
      obtain ⟨rfl, _⟩ := hc
      have k := copyList_counts (copy fuel) vs hall (fun q hq => hlt q (by simp [hq]))
        (fun h v t l2 hl2 H2 hlt2 => copy_spec fuel h v t l2 (by omega) H2 hlt2)
        (fun h h' v v' t l2 hl2 H2 hlt2 => ih h h' v v' t l2 (by omega) H2 hlt2) e1
      have := k.trans (counts_alloc ha (.arr va))
      rw [Tree.cells, Nat.add_comm 1]
      exact this
    | @obj p ks vs ts l1 hp hkl hall =>
      simp only [List.length_cons] at hl
      simp only [copy, Heap.deref, hp, Res.ok_bind] at hc
      obtain ⟨⟨ha, va⟩, e1, hc⟩ := Res.bind_eq_ok.mp hc
      simp only [Res.ok.injEq, Prod.mk.injEq] at hc
      obtain ⟨rfl, _⟩ := hc
      have k := copyList_counts (copy fuel) vs hall (fun q hq => hlt q (by simp [hq]))
        (fun h v t l2 hl2 H2 hlt2 => copy_spec fuel h v t l2 (by omega) H2 hlt2)
        (fun h h' v v' t l2 hl2 H2 hlt2 => ih h h' v v' t l2 (by omega) H2 hlt2) e1
      have := k.trans (counts_alloc ha (.obj ks va))
      rw [Tree.cells, Nat.add_comm 1]
      exact this

theorem destroyList_counts (fuel : Nat) (ih : ∀ (h h' : Heap) (v : Val) (t : Tree) (l : List Nat), l.length < fuel → Holds h v t l → l.Nodup → (∀ q ∈ l, q < h.next) →
      destroy fuel h v = .ok h' → Counts h h' 0 t.released) :
    ∀ (vs : List Val) {h h' : Heap} {ts l}, HoldsAll h vs ts l → l.Nodup → (∀ q ∈ l, q < h.next) → l.length < fuel →
      destroyList (destroy fuel) h vs = .ok h' → Counts h h' 0 (Tree.releasedAll ts) := by
  intro vs
  induction vs with
  | nil =>
    intro h h' ts l H _ _ _ hd
    cases H
    simp only [destroyList, Res.ok.injEq] at hd
    subst hd
    exact .refl _
  | cons v vs ihv =>
    intro h h' ts l H nd hlt hl hd
    cases H with
    | @cons _ t l1 _ ts ls H1 H2 =>
      simp only [destroyList] at hd
      obtain ⟨ha, e1, hd⟩ := Res.bind_eq_ok.mp hd
      obtain ⟨n1, n2, n3⟩ := List.nodup_append.mp nd
      simp only [List.length_append] at hl
      have k1 := ih h ha v t l1 (by omega) H1 n1 (fun q hq => hlt q (by simp [hq])) e1
      obtain ⟨hb, f1, f2, f3, f4⟩ := destroy_spec fuel h v t l1 (by omega) H1 n1
      rw [e1] at f1
      cases f1
      have k2 := ihv (holdsAll_mono H2 fun q hq => f3 q (fun hq' => n3 q hq' q hq rfl)) n2 (fun q hq => by rw [f2]; exact hlt q (by simp [hq])) (by omega) hd
      exact k1.trans k2

theorem destroy_counts : ∀ (fuel : Nat) (h h' : Heap) (v : Val) (t : Tree) (l : List Nat), l.length < fuel → Holds h v t l → l.Nodup → (∀ q ∈ l, q < h.next) →
    destroy fuel h v = .ok h' → Counts h h' 0 t.released := by
  intro fuel
  induction fuel with
  | zero => intro h h' v t l hl; omega
  | succ fuel ih =>
    intro h h' v t l hl H nd hlt hd
    cases H with
    | undef => simp only [destroy, Res.ok.injEq] at hd; subst hd; exact .refl _
    | bool => simp only [destroy, Res.ok.injEq] at hd; subst hd; exact .refl _
    | int => simp only [destroy, Res.ok.injEq] at hd; subst hd; exact .refl _
    | @str p z hp =>
      simp only [destroy, Heap.deref, hp, Res.ok_bind] at hd
      obtain ⟨a, b⟩ := live_free (hlt p (by simp)) hd
      exact ⟨b, a⟩
    | @arr p vs ts l1 hp hall =>
      simp only [destroy, Heap.deref, hp, Res.ok_bind] at hd
      obtain ⟨a, b⟩ := live_free (hlt p (by simp)) hd
      exact ⟨b, a⟩
    | @obj p ks vs ts l1 hp hkl hall =>
      simp only [List.length_cons] at hl
      simp only [destroy, Heap.deref, hp, Res.ok_bind] at hd
      obtain ⟨ha, e1, hd⟩ := Res.bind_eq_ok.mp hd
      have k := destroyList_counts fuel ih vs hall (List.nodup_cons.mp nd).2 (fun q hq => hlt q (by simp [hq])) (by omega) e1
      obtain ⟨a, b⟩ := live_free (h := ha) (by rw [k.1]; exact hlt p (by simp)) hd
      have k2 : Counts ha h' 0 1 := ⟨b, a⟩
      have := k.trans k2
      rw [Tree.released, Nat.add_comm 1]
      exact this

theorem assignVal_counts {h h' : Heap} {d : Loc} {s : Val} {x : Tree} {lx : List Nat} (Hs : Holds h s x lx) (nd : lx.Nodup) (hlt : ∀ q ∈ lx, q < h.next)
    (hsep : d.addr ∉ lx) (ha : assignVal h d s = .ok h') : Counts h h' x.cells 0 := by
  unfold assignVal at ha
  obtain ⟨old, e1, ha⟩ := Res.bind_eq_ok.mp ha
  obtain ⟨h1, e2, ha⟩ := Res.bind_eq_ok.mp ha
  have k1 := counts_write e2
  split at ha
  · rename_i hu
    cases ha
    cases Hs <;> simp at hu
    exact k1
  · obtain ⟨⟨h2, v⟩, e3, ha⟩ := Res.bind_eq_ok.mp ha
    have hsame : ∀ q, q ≠ d.addr → h1.cell q = h.cell q := by
      intro q hq
      unfold writeAt at e2
      cases hc : h.cell d.addr with
      | none => simp [hc] at e2
      | some c =>
        simp only [hc] at e2
        split at e2
        · cases e2; exact put_other _ _ hq
        · cases e2
    have hn : h1.next = h.next := k1.1
    have k2 := copy_counts h1.fuel h1 h2 s v x lx (by have := length_le_of_lt nd hlt; simp [Heap.fuel, hn]; omega)
      (holds_mono Hs fun q hq => hsame q (fun e => hsep (e ▸ hq))) (fun q hq => by rw [hn]; exact hlt q hq) e3
    have k3 := counts_write ha
    have := (k1.trans k2).trans k3
    simpa using this

end Eni.Owner
