import Verif.Spec.Owner
import Mathlib.Data.List.Perm.Basic
import Mathlib.Data.List.Nodup
import Mathlib.Data.List.Infix
/-!
# Ownership of the storage of JSON values: proofs
-/
set_option linter.unusedSimpArgs false
set_option linter.unusedVariables false
namespace Eni.Owner
open Spec

/-! ### Reading -/

theorem holdsAll_length {h : Heap} {vs ts l} (H : HoldsAll h vs ts l) : vs.length = ts.length := by
  induction vs generalizing ts l with
  | nil => cases H; rfl
  | cons v vs ih =>
    cases H with
    | cons _ h2 => simp [ih h2]

theorem holds_mono {h h' : Heap} {v t l} (H : Holds h v t l) (e : ∀ q ∈ l, h'.cell q = h.cell q) : Holds h' v t l := by
  revert e
  refine Holds.rec (h := h) (motive_1 := fun v t l _ => (∀ q ∈ l, h'.cell q = h.cell q) → Holds h' v t l)
    (motive_2 := fun vs ts l _ => (∀ q ∈ l, h'.cell q = h.cell q) → HoldsAll h' vs ts l) ?_ ?_ ?_ ?_ ?_ ?_ ?_ ?_ H
  · intro b _; exact .undef
  · intro b _; exact .bool
  · intro p z hp e; exact .int (by rw [e p (by simp), hp])
  · intro p s hp e; exact .str (by rw [e p (by simp), hp])
  · intro p vs ts l hp _ ih e
    exact .arr (by rw [e p (by simp), hp]) (ih fun q hq => e q (by simp [hq]))
  · intro p ks vs ts l hp hl _ ih e
    exact .obj (by rw [e p (by simp), hp]) hl (ih fun q hq => e q (by simp [hq]))
  · intro _; exact .nil
  · intro v t l vs ts ls _ _ ih1 ih2 e
    exact .cons (ih1 fun q hq => e q (by simp [hq])) (ih2 fun q hq => e q (by simp [hq]))

theorem holdsAll_mono {h h' : Heap} {vs ts l} (H : HoldsAll h vs ts l) (e : ∀ q ∈ l, h'.cell q = h.cell q) : HoldsAll h' vs ts l := by
  induction vs generalizing ts l with
  | nil => cases H; exact .nil
  | cons v vs ih =>
    cases H with
    | cons h1 h2 =>
      exact .cons (holds_mono h1 fun q hq => e q (by simp [hq])) (ih h2 fun q hq => e q (by simp [hq]))

/-- The cells of a value are allocated. -/
theorem holds_live {h : Heap} {v t l} (H : Holds h v t l) : ∀ q ∈ l, h.cell q ≠ none := by
  refine Holds.rec (motive_1 := fun _ _ l _ => ∀ q ∈ l, h.cell q ≠ none) (motive_2 := fun _ _ l _ => ∀ q ∈ l, h.cell q ≠ none)
    ?_ ?_ ?_ ?_ ?_ ?_ ?_ ?_ H
  · simp
  · simp
  · intro p z hc; simp [hc]
  · intro p z hc; simp [hc]
  · intro p vs ts l hc _ ih q hq
    rcases List.mem_cons.mp hq with rfl | hq
    · simp [hc]
    · exact ih q hq
  · intro p ks vs ts l hc _ _ ih q hq
    rcases List.mem_cons.mp hq with rfl | hq
    · simp [hc]
    · exact ih q hq
  · simp
  · intro v t l vs ts ls _ _ ih1 ih2 q hq
    rcases List.mem_append.mp hq with hq | hq
    · exact ih1 q hq
    · exact ih2 q hq


theorem holds_unique {h : Heap} {v t l} (H : Holds h v t l) : ∀ {t' l'}, Holds h v t' l' → t = t' ∧ l = l' := by
  refine Holds.rec (h := h) (motive_1 := fun v t l _ => ∀ {t' l'}, Holds h v t' l' → t = t' ∧ l = l')
    (motive_2 := fun vs ts l _ => ∀ {ts' l'}, HoldsAll h vs ts' l' → ts = ts' ∧ l = l') ?_ ?_ ?_ ?_ ?_ ?_ ?_ ?_ H
  · intro b t' l' H; cases H; exact ⟨rfl, rfl⟩
  · intro b t' l' H; cases H; exact ⟨rfl, rfl⟩
  · intro p z hp t' l' H
    cases H with
    | int hp' => rw [hp] at hp'; cases hp'; exact ⟨rfl, rfl⟩
  · intro p z hp t' l' H
    cases H with
    | str hp' => rw [hp] at hp'; cases hp'; exact ⟨rfl, rfl⟩
  · intro p vs ts l hp _ ih t' l' H
    cases H with
    | arr hp' h2 =>
      rw [hp] at hp'; cases hp'
      obtain ⟨rfl, rfl⟩ := ih h2
      exact ⟨rfl, rfl⟩
  · intro p ks vs ts l hp _ _ ih t' l' H
    cases H with
    | obj hp' _ h2 =>
      rw [hp] at hp'; cases hp'
      obtain ⟨rfl, rfl⟩ := ih h2
      exact ⟨rfl, rfl⟩
  · intro t' l' H; cases H; exact ⟨rfl, rfl⟩
  · intro v t l vs ts ls _ _ ih1 ih2 ts' l' H
    cases H with
    | cons h1 h2 =>
      obtain ⟨rfl, rfl⟩ := ih1 h1
      obtain ⟨rfl, rfl⟩ := ih2 h2
      exact ⟨rfl, rfl⟩

theorem holdsAll_append {h : Heap} {vs ts l vs' ts' l'} (H : HoldsAll h vs ts l) (H' : HoldsAll h vs' ts' l') :
    HoldsAll h (vs ++ vs') (ts ++ ts') (l ++ l') := by
  induction vs generalizing ts l with
  | nil => cases H; simpa using H'
  | cons v vs ih =>
    cases H with
    | cons h1 h2 =>
      rw [List.append_assoc]
      exact .cons h1 (ih h2)

theorem holdsAll_one {h : Heap} {v t l} (H : Holds h v t l) : HoldsAll h [v] [t] l := by
  have := HoldsAll.cons H .nil
  simpa using this

/-- Element `i` of a list of values, what is left of the cells, and replacing the element. -/
theorem holdsAll_focus {h : Heap} {vs ts l} (H : HoldsAll h vs ts l) {i : Nat} {t : Tree} (hi : ts[i]? = some t) :
    ∃ v l1 l2, vs[i]? = some v ∧ Holds h v t l1 ∧ l.Perm (l1 ++ l2) ∧
      (∀ (h' : Heap) v' t' l1', (∀ q ∈ l2, h'.cell q = h.cell q) → Holds h' v' t' l1' →
        ∃ l', HoldsAll h' (vs.set i v') (ts.set i t') l' ∧ l'.Perm (l1' ++ l2)) ∧
      (∀ (h' : Heap), (∀ q ∈ l2, h'.cell q = h.cell q) → ∃ l', HoldsAll h' (vs.eraseIdx i) (ts.eraseIdx i) l' ∧ l'.Perm l2) ∧
      (∀ j w, j ≠ i → vs[j]? = some w → ∃ tj lj, Holds h w tj lj ∧ ∀ q ∈ lj, q ∈ l2) := by
  induction vs generalizing ts l i t with
  | nil => cases H; simp at hi
  | cons v vs ih =>
    cases H with
    | @cons _ t0 l0 _ ts0 ls h1 h2 =>
      cases i with
      | zero =>
        simp only [List.getElem?_cons_zero, Option.some.injEq] at hi
        subst hi
        refine ⟨v, l0, ls, rfl, h1, List.Perm.refl _, ?_, ?_, ?_⟩
        · intro h' v' t' l1' e H'
          exact ⟨l1' ++ ls, .cons H' (holdsAll_mono h2 e), List.Perm.refl _⟩
        · intro h' e
          exact ⟨ls, holdsAll_mono h2 e, List.Perm.refl _⟩
        · intro j w hj hw
          cases j with
          | zero => exact absurd rfl hj
          | succ j =>
            simp only [List.getElem?_cons_succ] at hw
            have hlen := holdsAll_length h2
            obtain ⟨hjl, _⟩ := List.getElem?_eq_some_iff.mp hw
            have : ts0[j]? = some (ts0[j]'(by omega)) := List.getElem?_eq_getElem _
            obtain ⟨w', a, b, hw', ha, hp, _⟩ := ih h2 this
            rw [hw'] at hw
            cases hw
            exact ⟨_, a, ha, fun q hq => hp.mem_iff.mpr (by simp [hq])⟩
      | succ i =>
        simp only [List.getElem?_cons_succ] at hi
        obtain ⟨w, a, b, hw, ha, hp, hset, her, hsib⟩ := ih h2 hi
        have hperm : ∀ x y : List Nat, x.Perm (y ++ b) → (l0 ++ x).Perm (y ++ (l0 ++ b)) := by
          intro x y hxy
          refine (hxy.append_left l0).trans ?_
          rw [← List.append_assoc, ← List.append_assoc]
          exact List.perm_append_comm.append_right b
        refine ⟨w, a, l0 ++ b, by simpa using hw, ha, hperm _ _ hp, ?_, ?_, ?_⟩
        · intro h' v' t' l1' e H'
          obtain ⟨l', hl', hp'⟩ := hset h' v' t' l1' (fun q hq => e q (by simp [hq])) H'
          exact ⟨l0 ++ l', .cons (holds_mono h1 fun q hq => e q (by simp [hq])) hl', hperm _ _ hp'⟩
        · intro h' e
          obtain ⟨l', hl', hp'⟩ := her h' (fun q hq => e q (by simp [hq]))
          exact ⟨l0 ++ l', .cons (holds_mono h1 fun q hq => e q (by simp [hq])) hl', hp'.append_left l0⟩
        · intro j w' hj hw'
          cases j with
          | zero =>
            simp only [List.getElem?_cons_zero, Option.some.injEq] at hw'
            subst hw'
            exact ⟨t0, l0, h1, fun q hq => by simp [hq]⟩
          | succ j =>
            simp only [List.getElem?_cons_succ] at hw'
            obtain ⟨tj, lj, h3, h4⟩ := hsib j w' (by omega) hw'
            exact ⟨tj, lj, h3, fun q hq => by simp [h4 q hq]⟩

/-! ### Steps -/

/-- A node: array or object value with its cell. -/
theorem holds_pos {h : Heap} {v t l} (H : Holds h v t l) {s : Step} {i : Nat} (hp : t.pos s = some i) :
    ∃ p c l', l = p :: l' ∧ v.bits = .ptr p ∧ h.cell p = some c ∧ HoldsAll h c.kids t.kids l' ∧ i < t.kids.length ∧ i < c.kids.length ∧
      stepInto h v s = .ok ⟨p, i⟩ ∧
      (∀ (h' : Heap) vs ts l'', vs.length = c.kids.length → h'.cell p = some (c.withKids vs) → ts.length = t.kids.length → HoldsAll h' vs ts l'' →
        Holds h' v (t.withKids ts) (p :: l'')) ∧
      (∀ vs, (c.withKids vs).kids = vs) ∧ (∀ vs vs', (c.withKids vs).withKids vs' = c.withKids vs') := by
  cases H with
  | undef => simp [Tree.pos] at hp
  | bool => simp [Tree.pos] at hp
  | int _ => simp [Tree.pos] at hp
  | str _ => simp [Tree.pos] at hp
  | @arr p vs ts l hc hk =>
    cases s with
    | mem k => simp [Tree.pos] at hp
    | elem j =>
      simp only [Tree.pos, Option.ite_none_right_eq_some, Option.some.injEq] at hp
      obtain ⟨hj, rfl⟩ := hp
      have hlen := holdsAll_length hk
      refine ⟨p, _, l, rfl, rfl, hc, hk, hj, by simpa [Cell.kids, hlen] using hj, ?_, ?_, fun _ => rfl, fun _ _ => rfl⟩
      · simp [stepInto, Heap.deref, hc, hlen, hj]
      · intro h' vs' ts' l'' _ hc' _ hk'
        exact .arr hc' hk'
  | @obj p ks vs ts l hc hl hk =>
    cases s with
    | elem j => simp [Tree.pos] at hp
    | mem k =>
      simp only [Tree.pos, Option.ite_none_right_eq_some, Option.some.injEq] at hp
      obtain ⟨hj, rfl⟩ := hp
      have hlen := holdsAll_length hk
      have hlt := List.idxOf_lt_length_iff.mpr hj
      refine ⟨p, _, l, rfl, rfl, hc, hk, by simpa [Tree.kids, ← hl] using hlt, by simp only [Cell.kids]; omega, ?_, ?_, fun _ => rfl, fun _ _ => rfl⟩
      · simp [stepInto, Heap.deref, hc, hj]
      · intro h' vs' ts' l'' _ hc' hl' hk'
        exact .obj hc' (by rw [hl, hl']; rfl) hk'

/-- `w` is the value at a path below `v`. -/
def At (h : Heap) (v : Val) : Path → Val → Prop
  | [], w => v = w
  | s :: ps, w => ∃ l u, stepInto h v s = .ok l ∧ readAt h l = .ok u ∧ At h u ps w

theorem locate_cons {h : Heap} {v : Val} {s : Step} {ps : Path} (hps : ps ≠ []) :
    locate h v (s :: ps) = (stepInto h v s >>= fun l => readAt h l >>= fun w => locate h w ps) := by
  cases ps with
  | nil => exact absurd rfl hps
  | cons a b => rfl

theorem locate_snoc {h : Heap} {v : Val} {ps : Path} {s : Step} {l : Loc} :
    locate h v (ps ++ [s]) = .ok l ↔ ∃ w, At h v ps w ∧ stepInto h w s = .ok l := by
  induction ps generalizing v with
  | nil => simp [locate, At]
  | cons a ps ih =>
    rw [List.cons_append, locate_cons (by simp)]
    constructor
    · intro hl
      rw [Res.bind_eq_ok] at hl
      obtain ⟨l1, h1, h2⟩ := hl
      rw [Res.bind_eq_ok] at h2
      obtain ⟨w1, h3, h4⟩ := h2
      obtain ⟨w, h5, h6⟩ := ih.mp h4
      exact ⟨w, ⟨l1, w1, h1, h3, h5⟩, h6⟩
    · rintro ⟨w, ⟨l1, w1, h1, h3, h5⟩, h6⟩
      rw [h1, Res.ok_bind, h3, Res.ok_bind]
      exact ih.mpr ⟨w, h5, h6⟩

/-- The path lemma: where a path leads, the rest of the cells, and replacing the value at the path. -/
theorem focus {h : Heap} : ∀ (path : Path) {v t l u}, Holds h v t l → l.Nodup → path ≠ [] → t.get path = some u →
    ∃ loc w lu lr c, locate h v path = .ok loc ∧ readAt h loc = .ok w ∧ At h v path w ∧ Holds h w u lu ∧ l.Perm (lu ++ lr) ∧ loc.addr ∈ lr ∧
      h.cell loc.addr = some c ∧ loc.idx < c.kids.length ∧ (∀ vs, (c.withKids vs).kids = vs) ∧
      (∀ vs vs', (c.withKids vs).withKids vs' = c.withKids vs') ∧
      ∀ (h' : Heap) w' u' lu', h'.cell loc.addr = some (c.withKids (c.kids.set loc.idx w')) → (∀ q ∈ lr, q ≠ loc.addr → h'.cell q = h.cell q) →
        Holds h' w' u' lu' → ∃ l', Holds h' v (t.set u' path) l' ∧ l'.Perm (lu' ++ lr) := by
  intro path
  induction path with
  | nil => intro v t l u _ _ h; exact absurd rfl h
  | cons s ps ih =>
    intro v t l u H nd _ hget
    simp only [Tree.get, bind, Option.bind_eq_some_iff] at hget
    obtain ⟨i, hpos, k, hk, hget⟩ := hget
    obtain ⟨p, c, l0, rfl, hb, hc, hall, hi, hi', hst, hback, hwk, hww⟩ := holds_pos H hpos
    obtain ⟨w1, l1, l2, hw1, hh1, hperm, hset, _, _⟩ := holdsAll_focus hall hk
    have hread : readAt h ⟨p, i⟩ = .ok w1 := by simp [readAt, hc, hw1]
    have hnd := hperm.nodup_iff.mp (List.nodup_cons.mp nd).2
    have hp1 : p ∉ l1 := fun hq => (List.nodup_cons.mp nd).1 (hperm.mem_iff.mpr (by simp [hq]))
    have hp2 : p ∉ l2 := fun hq => (List.nodup_cons.mp nd).1 (hperm.mem_iff.mpr (by simp [hq]))
    by_cases hps : ps = []
    · subst hps
      simp only [Tree.get, Option.some.injEq] at hget
      subst hget
      refine ⟨⟨p, i⟩, w1, l1, p :: l2, c, hst, hread, ⟨⟨p, i⟩, w1, hst, hread, rfl⟩, hh1, ?_, by simp, hc, hi', hwk, hww, ?_⟩
      · exact (hperm.cons p).trans (List.perm_middle.symm)
      · intro h' w' u' lu' hc' hrest H'
        obtain ⟨l', hl', hp'⟩ := hset h' w' u' lu' (fun q hq => hrest q (by simp [hq]) (fun e => hp2 (by have e' : q = p := e; rwa [e'] at hq))) H'
        refine ⟨p :: l', ?_, (hp'.cons p).trans List.perm_middle.symm⟩
        have := hback h' _ _ l' (by simp) hc' (by simp) hl'
        simpa [Tree.set, hpos, hk] using this
    · obtain ⟨loc, w, lu, lr, c', h1, h2, h2', h3, h4, h5, h6, h7, hwk', hww', h8⟩ := ih hh1 (List.nodup_append.mp hnd).1 hps hget
      have hpl : loc.addr ≠ p := fun e => hp1 (h4.mem_iff.mpr (by simp [← e, h5]))
      have hl2 : loc.addr ∉ l2 := fun hq => by
        have := (List.nodup_append.mp hnd).2.2 loc.addr (h4.mem_iff.mpr (by simp [h5])) loc.addr hq
        exact this rfl
      refine ⟨loc, w, lu, lr ++ (p :: l2), c', ?_, h2, ⟨⟨p, i⟩, w1, hst, hread, h2'⟩, h3, ?_, by simp [h5], h6, h7, hwk', hww', ?_⟩
      · rw [locate_cons hps, hst, Res.ok_bind, hread, Res.ok_bind, h1]
      · refine (hperm.cons p).trans ?_
        refine List.perm_middle.symm.trans ?_
        rw [← List.append_assoc]
        exact h4.append_right _
      · intro h' w' u' lu' hc' hrest H'
        obtain ⟨l', hl', hp'⟩ := h8 h' w' u' lu' hc' (fun q hq hne => hrest q (by simp [hq]) hne) H'
        obtain ⟨l'', hl'', hp''⟩ := hset h' w1 (k.set u' ps) l'
          (fun q hq => hrest q (by simp [hq]) (fun e => hl2 (e ▸ hq))) hl'
        have hset0 : c.kids.set i w1 = c.kids := by
          obtain ⟨_, e⟩ := List.getElem?_eq_some_iff.mp hw1
          rw [← e]
          exact List.set_getElem_self _
        rw [hset0] at hl''
        refine ⟨p :: l'', ?_, ?_⟩
        · have hcp : h'.cell p = some (c.withKids c.kids) := by
            rw [hrest p (by simp) (Ne.symm hpl), hc]
            cases c <;> rfl
          have := hback h' _ _ l'' rfl hcp (by simp) hl''
          simpa [Tree.set, hpos, hk] using this
        · refine (hp''.cons p).trans ?_
          refine List.perm_middle.symm.trans ?_
          rw [← List.append_assoc]
          exact hp'.append_right _

/-! ### Separation -/

theorem stepInto_pos {h : Heap} {v t l} (H : Holds h v t l) {s : Step} {loc : Loc} (hs : stepInto h v s = .ok loc) :
    t.pos s = some loc.idx ∧ v.bits = .ptr loc.addr := by
  cases s with
  | elem i =>
    cases H with
    | arr hc hk =>
      simp only [stepInto, if_true, Heap.deref, hc, Res.ok_bind] at hs
      split at hs
      · cases hs
        have := holdsAll_length hk
        rename_i hi
        exact ⟨by simp [Tree.pos]; omega, rfl⟩
      · cases hs
    | _ => simp [stepInto] at hs
  | mem k =>
    cases H with
    | obj hc hl hk =>
      simp only [stepInto, if_true, Heap.deref, hc, Res.ok_bind] at hs
      split at hs
      · cases hs
        rename_i hi
        exact ⟨by simp [Tree.pos, hi], rfl⟩
      · cases hs
    | _ => simp [stepInto] at hs

/-- Cells of a part are cells of the whole. -/
theorem at_sub {h : Heap} : ∀ (path : Path) {v t l w}, Holds h v t l → At h v path w →
    ∃ u lu, t.get path = some u ∧ Holds h w u lu ∧ ∀ q ∈ lu, q ∈ l := by
  intro path
  induction path with
  | nil =>
    intro v t l w H ha
    cases ha
    exact ⟨t, l, rfl, H, fun _ h => h⟩
  | cons s ps ih =>
    intro v t l w H ha
    obtain ⟨loc, u, h1, h2, h3⟩ := ha
    obtain ⟨hpos, hb⟩ := stepInto_pos H h1
    obtain ⟨p, c, l0, rfl, hb', hc, hall, hi, hi', hst, _⟩ := holds_pos H hpos
    rw [hb] at hb'
    cases hb'
    have hk : t.kids[loc.idx]? = some (t.kids[loc.idx]'hi) := List.getElem?_eq_getElem _
    obtain ⟨w1, l1, l2, hw1, hh1, hperm, _⟩ := holdsAll_focus hall hk
    have : u = w1 := by
      simp [readAt, hc, hw1] at h2
      exact h2.symm
    subst this
    obtain ⟨x, lu, h4, h5, h6⟩ := ih hh1 h3
    refine ⟨x, lu, by simp [Tree.get, hpos, hk, h4], h5, fun q hq => ?_⟩
    simp [hperm.mem_iff, h6 q hq]

/-- A node at path `b` is not among the cells of the value at path `a`, unless `a` is a prefix of `b`. -/
theorem separate {h : Heap} : ∀ (a b : Path) {v t l w u lu vb p}, Holds h v t l → l.Nodup → At h v a w → Holds h w u lu →
    At h v b vb → (∃ tb lb, Holds h vb tb (p :: lb)) → ¬ a <+: b → p ∉ lu := by
  intro a
  induction a with
  | nil => intro b v t l w u lu vb p _ _ _ _ _ _ h; exact absurd (List.nil_prefix) h
  | cons s a ih =>
    intro b v t l w u lu vb p H nd ha Hw hb hvb hnp
    obtain ⟨loc, w1, h1, h2, h3⟩ := ha
    obtain ⟨hpos, hbits⟩ := stepInto_pos H h1
    obtain ⟨p0, c, l0, rfl, hb', hc, hall, hi, hi', hst, _⟩ := holds_pos H hpos
    rw [hbits] at hb'
    cases hb'
    have hk : t.kids[loc.idx]? = some (t.kids[loc.idx]'hi) := List.getElem?_eq_getElem _
    obtain ⟨w2, l1, l2, hw2, hh1, hperm, _, _, hsib⟩ := holdsAll_focus hall hk
    have : w1 = w2 := by
      simp [readAt, hc, hw2] at h2
      exact h2.symm
    subst this
    have hsub : ∀ q ∈ lu, q ∈ l1 := by
      obtain ⟨x, lu', _, h5, h6⟩ := at_sub a hh1 h3
      obtain ⟨_, rfl⟩ := holds_unique Hw h5
      exact h6
    have hnd := hperm.nodup_iff.mp (List.nodup_cons.mp nd).2
    cases b with
    | nil =>
      cases hb
      obtain ⟨tb, lb, hvb⟩ := hvb
      obtain ⟨_, he⟩ := holds_unique H hvb
      cases he
      intro hq
      exact (List.nodup_cons.mp nd).1 (hperm.mem_iff.mpr (by simp [hsub _ hq]))
    | cons s' b =>
      obtain ⟨loc', w1', g1, g2, g3⟩ := hb
      by_cases hs : s = s'
      · subst hs
        rw [h1] at g1
        cases g1
        rw [h2] at g2
        cases g2
        exact ih b hh1 (List.nodup_append.mp hnd).1 h3 Hw g3 hvb (fun hp => hnp (List.cons_prefix_cons.mpr ⟨rfl, hp⟩))
      · obtain ⟨hpos', hbits'⟩ := stepInto_pos H g1
        rw [hbits] at hbits'
        have hadd : loc'.addr = loc.addr := (Bits.ptr.inj hbits').symm
        have hne : loc'.idx ≠ loc.idx := by
          intro e
          rw [e] at hpos'
          cases t with
          | arr ts =>
            cases s <;> cases s' <;> simp [Tree.pos] at hpos hpos'
            exact hs (by rw [hpos.2, hpos'.2])
          | obj ks ts =>
            cases s <;> cases s' <;> simp [Tree.pos] at hpos hpos'
            apply hs
            congr 1
            have := hpos.2.trans hpos'.2.symm
            exact (List.idxOf_inj hpos.1).mp this
          | _ => simp [Tree.pos] at hpos
        have hw1' : c.kids[loc'.idx]? = some w1' := by
          simp only [readAt, hadd, hc] at g2
          split at g2
          · cases g2
          · cases g2; assumption
        obtain ⟨tj, lj, h5, h6⟩ := hsib loc'.idx w1' hne hw1'
        obtain ⟨x, lb', _, h7, h8⟩ := at_sub b h5 g3
        obtain ⟨tb, lb, hvb⟩ := hvb
        obtain ⟨_, he⟩ := holds_unique hvb h7
        intro hq
        have hp2 : p ∈ l2 := h6 p (h8 p (by rw [← he]; simp))
        exact (List.nodup_append.mp hnd).2.2 p (hsub p hq) p hp2 rfl

/-- Two paths to the same node are equal. -/
theorem at_inj {h : Heap} {a b : Path} {v t l va vb p} (H : Holds h v t l) (nd : l.Nodup) (ha : At h v a va) (hb : At h v b vb)
    (hva : ∃ ta la, Holds h va ta (p :: la)) (hvb : ∃ tb lb, Holds h vb tb (p :: lb)) : a = b := by
  have h1 : a <+: b := by
    by_contra hn
    obtain ⟨ta, la, h2⟩ := hva
    exact separate a b H nd ha h2 hb hvb hn (by simp)
  have h2 : b <+: a := by
    by_contra hn
    obtain ⟨tb, lb, h2⟩ := hvb
    exact separate b a H nd hb h2 ha hva hn (by simp)
  exact h1.eq_of_length (le_antisymm h1.length_le h2.length_le)

/-! ### Copying -/

/-- Nothing was allocated at or above `next`. -/
def Heap.Fresh (h : Heap) : Prop := ∀ q, h.next ≤ q → h.cell q = none

/-- The old cells are unchanged. -/
def Ext (h h' : Heap) : Prop := h.next ≤ h'.next ∧ ∀ q, q < h.next → h'.cell q = h.cell q

theorem Ext.refl (h : Heap) : Ext h h := ⟨le_refl _, fun _ _ => rfl⟩

theorem Ext.trans {a b c : Heap} (h1 : Ext a b) (h2 : Ext b c) : Ext a c :=
  ⟨le_trans h1.1 h2.1, fun q hq => by rw [h2.2 q (by have := h1.1; omega), h1.2 q hq]⟩

theorem Ext.alloc (h : Heap) (c : Cell) : Ext h (h.alloc c).1 :=
  ⟨by simp [Heap.alloc], fun q hq => by simp [Heap.alloc]; omega⟩

theorem Heap.Fresh.alloc {h : Heap} (hf : h.Fresh) (c : Cell) : (h.alloc c).1.Fresh := by
  intro q hq
  simp only [Heap.alloc] at hq ⊢
  rw [if_neg (by omega)]
  exact hf q (by omega)

theorem alloc_cell (h : Heap) (c : Cell) : (h.alloc c).1.cell h.next = some c := by simp [Heap.alloc]

/-- Result of copying value `v` in heap `h`. -/
def Copied (h : Heap) (v : Val) (t : Tree) (r : Res (Heap × Val)) : Prop :=
  ∃ h' v' l', r = .ok (h', v') ∧ Holds h' v' t l' ∧ Ext h h' ∧ l'.Nodup ∧ (∀ q ∈ l', h.next ≤ q ∧ q < h'.next) ∧ (h.Fresh → h'.Fresh) ∧ v'.ty = v.ty

theorem copyList_spec (cp : Heap → Val → Res (Heap × Val)) : ∀ (vs : List Val) {h ts l}, HoldsAll h vs ts l → (∀ q ∈ l, q < h.next) →
    (∀ (h : Heap) v t l1, l1.length ≤ l.length → Holds h v t l1 → (∀ q ∈ l1, q < h.next) → Copied h v t (cp h v)) →
    ∃ h' vs' l', copyList cp h vs = .ok (h', vs') ∧ HoldsAll h' vs' ts l' ∧ Ext h h' ∧ l'.Nodup ∧ (∀ q ∈ l', h.next ≤ q ∧ q < h'.next) ∧
      (h.Fresh → h'.Fresh) := by
  intro vs
  induction vs with
  | nil =>
    intro h ts l H _ _
    cases H
    exact ⟨h, [], [], rfl, .nil, Ext.refl h, List.nodup_nil, by simp, id⟩
  | cons v vs ih =>
    intro h ts l H hlt hcp
    cases H with
    | @cons _ t l1 _ ts ls h1 h2 =>
      obtain ⟨ha, va, la, e1, e2, e3, e4, e5, e6, _⟩ := hcp h v t l1 (by simp) h1 (fun q hq => hlt q (by simp [hq]))
      have h2' : HoldsAll ha vs ts ls := holdsAll_mono h2 fun q hq => e3.2 q (hlt q (by simp [hq]))
      obtain ⟨hb, vb, lb, f1, f2, f3, f4, f5, f6⟩ := ih h2' (fun q hq => lt_of_lt_of_le (hlt q (by simp [hq])) e3.1)
        (fun h v t l1 hl => hcp h v t l1 (by simp; omega))
      refine ⟨hb, va :: vb, la ++ lb, by simp [copyList, e1, f1], ?_, e3.trans f3, ?_, ?_, f6 ∘ e6⟩
      · exact .cons (holds_mono e2 fun q hq => f3.2 q (e5 q hq).2) f2
      · refine List.nodup_append.mpr ⟨e4, f4, ?_⟩
        intro a ha' b hb' e
        have := e5 a ha'
        have := f5 b hb'
        omega
      · intro q hq
        have := e3.1
        have := f3.1
        rcases List.mem_append.mp hq with hq | hq
        · have := e5 q hq; omega
        · have := f5 q hq; omega

theorem copy_spec : ∀ (fuel : Nat) (h : Heap) (v : Val) (t : Tree) (l : List Nat), l.length < fuel → Holds h v t l → (∀ q ∈ l, q < h.next) →
    Copied h v t (copy fuel h v) := by
  intro fuel
  induction fuel with
  | zero => intro h v t l hl; omega
  | succ fuel ih =>
    intro h v t l hl H hlt
    cases H with
    | undef => exact ⟨h, ⟨.undef, .null⟩, [], rfl, .undef, Ext.refl h, List.nodup_nil, by simp, id, rfl⟩
    | @bool b => exact ⟨h, ⟨.bool, .bool b⟩, [], rfl, .bool, Ext.refl h, List.nodup_nil, by simp, id, rfl⟩
    | @int p z hp =>
      refine ⟨(h.alloc (.int z)).1, ⟨.int, .ptr h.next⟩, [h.next], by simp [copy, Heap.deref, hp]; rfl, .int (alloc_cell h _), Ext.alloc h _,
        by simp, ?_, fun hf => hf.alloc _, rfl⟩
      simp [Heap.alloc]
    | @str p z hp =>
      refine ⟨(h.alloc (.str z)).1, ⟨.str, .ptr h.next⟩, [h.next], by simp [copy, Heap.deref, hp]; rfl, .str (alloc_cell h _), Ext.alloc h _,
        by simp, ?_, fun hf => hf.alloc _, rfl⟩
      simp [Heap.alloc]
    | @arr p vs ts l hp hall =>
      obtain ⟨h1, vs', l', e1, e2, e3, e4, e5, e6⟩ := copyList_spec (copy fuel) vs hall (fun q hq => hlt q (by simp [hq]))
        (fun h v t l1 hl1 H1 => ih h v t l1 (by simp at hl; omega) H1)
      refine ⟨(h1.alloc (.arr vs')).1, ⟨.arr, .ptr h1.next⟩, h1.next :: l', by simp [copy, Heap.deref, hp, e1]; rfl, ?_, e3.trans (Ext.alloc h1 _), ?_, ?_,
        fun hf => (e6 hf).alloc _, rfl⟩
      · exact .arr (alloc_cell h1 _) (holdsAll_mono e2 fun q hq => (Ext.alloc h1 _).2 q (e5 q hq).2)
      · exact List.nodup_cons.mpr ⟨fun hq => absurd (e5 _ hq).2 (by omega), e4⟩
      · intro q hq
        have := e3.1
        simp only [Heap.alloc]
        rcases List.mem_cons.mp hq with rfl | hq
        · omega
        · have := e5 q hq; omega
    | @obj p ks vs ts l hp hkl hall =>
      obtain ⟨h1, vs', l', e1, e2, e3, e4, e5, e6⟩ := copyList_spec (copy fuel) vs hall (fun q hq => hlt q (by simp [hq]))
        (fun h v t l1 hl1 H1 => ih h v t l1 (by simp at hl; omega) H1)
      refine ⟨(h1.alloc (.obj ks vs')).1, ⟨.obj, .ptr h1.next⟩, h1.next :: l', by simp [copy, Heap.deref, hp, e1]; rfl, ?_, e3.trans (Ext.alloc h1 _), ?_,
        ?_, fun hf => (e6 hf).alloc _, rfl⟩
      · exact .obj (alloc_cell h1 _) hkl (holdsAll_mono e2 fun q hq => (Ext.alloc h1 _).2 q (e5 q hq).2)
      · exact List.nodup_cons.mpr ⟨fun hq => absurd (e5 _ hq).2 (by omega), e4⟩
      · intro q hq
        have := e3.1
        simp only [Heap.alloc]
        rcases List.mem_cons.mp hq with rfl | hq
        · omega
        · have := e5 q hq; omega

theorem length_le_of_lt {l : List Nat} {n : Nat} (nd : l.Nodup) (h : ∀ q ∈ l, q < n) : l.length ≤ n := by
  have h1 : l ⊆ List.range n := fun q hq => List.mem_range.mpr (h q hq)
  have := (List.subperm_of_subset nd h1).length_le
  simpa using this

/-! ### Destruction -/

/-- Cells released by destroying a tree with cells `l`. -/
theorem destroy_spec : ∀ (fuel : Nat) (h : Heap) (v : Val) (t : Tree) (l : List Nat), l.length < fuel → Holds h v t l → l.Nodup →
    ∃ h', destroy fuel h v = .ok h' ∧ h'.next = h.next ∧ (∀ q, q ∉ l → h'.cell q = h.cell q) ∧ (∀ q, h'.cell q = h.cell q ∨ h'.cell q = none) := by
  intro fuel
  induction fuel with
  | zero => intro h v t l hl; omega
  | succ fuel ih =>
    have hfree : ∀ (h : Heap) p c, h.cell p = some c → h.free p = .ok { h with cell := fun q => if q = p then none else h.cell q } := by
      intro h p c hc; simp [Heap.free, hc]
    have hlist : ∀ (vs : List Val) (h : Heap) ts l, l.length < fuel → HoldsAll h vs ts l → l.Nodup →
        ∃ h', destroyList (destroy fuel) h vs = .ok h' ∧ h'.next = h.next ∧ (∀ q, q ∉ l → h'.cell q = h.cell q) ∧
          (∀ q, h'.cell q = h.cell q ∨ h'.cell q = none) := by
      intro vs
      induction vs with
      | nil => intro h ts l _ H _; exact ⟨h, rfl, rfl, fun _ _ => rfl, fun _ => .inl rfl⟩
      | cons v vs ihv =>
        intro h ts l hl H nd
        cases H with
        | @cons _ t l1 _ ts ls h1 h2 =>
          obtain ⟨n1, n2, n3⟩ := List.nodup_append.mp nd
          obtain ⟨ha, e1, e2, e3, e4⟩ := ih h v t l1 (by simp at hl; omega) h1 n1
          have h2' : HoldsAll ha vs ts ls := holdsAll_mono h2 fun q hq => e3 q (fun hq' => n3 q hq' q hq rfl)
          obtain ⟨hb, f1, f2, f3, f4⟩ := ihv ha ts ls (by simp at hl; omega) h2' n2
          refine ⟨hb, by simp [destroyList, e1, f1], by rw [f2, e2], ?_, ?_⟩
          · intro q hq
            simp only [List.mem_append, not_or] at hq
            rw [f3 q hq.2, e3 q hq.1]
          · intro q
            rcases f4 q with h | h
            · rw [h]; exact e4 q
            · exact .inr h
    intro h v t l hl H nd
    cases H with
    | undef => exact ⟨h, rfl, rfl, fun _ _ => rfl, fun _ => .inl rfl⟩
    | bool => exact ⟨h, rfl, rfl, fun _ _ => rfl, fun _ => .inl rfl⟩
    | int _ => exact ⟨h, rfl, rfl, fun _ _ => rfl, fun _ => .inl rfl⟩
    | @str p z hp =>
      refine ⟨{ h with cell := fun q => if q = p then none else h.cell q }, by simp [destroy, Heap.deref, hp, hfree h p _ hp], rfl, ?_, ?_⟩
      · intro q hq; simp at hq; simp [hq]
      · intro q; by_cases e : q = p <;> simp [e]
    | @arr p vs ts l hp hall =>
      refine ⟨{ h with cell := fun q => if q = p then none else h.cell q }, by simp [destroy, Heap.deref, hp, hfree h p _ hp], rfl, ?_, ?_⟩
      · intro q hq; simp at hq; simp [hq]
      · intro q; by_cases e : q = p <;> simp [e]
    | @obj p ks vs ts l hp hkl hall =>
      obtain ⟨np, nl⟩ := List.nodup_cons.mp nd
      obtain ⟨h1, e1, e2, e3, e4⟩ := hlist vs h ts l (by simp at hl; omega) hall nl
      have hp1 : h1.cell p = some (.obj ks vs) := by rw [e3 p np, hp]
      refine ⟨{ h1 with cell := fun q => if q = p then none else h1.cell q }, by simp [destroy, Heap.deref, hp, e1, hfree h1 p _ hp1], e2, ?_, ?_⟩
      · intro q hq
        simp only [List.mem_cons, not_or] at hq
        simp [hq.1, e3 q hq.2]
      · intro q
        by_cases e : q = p
        · simp [e]
        · simp [e, e4 q]

/-- Destroying a value without numbers and arrays releases all its cells. -/
theorem destroy_light : ∀ (fuel : Nat) (h : Heap) (v : Val) (t : Tree) (l : List Nat), l.length < fuel → Holds h v t l → l.Nodup →
    t.Light → ∃ h', destroy fuel h v = .ok h' ∧ ∀ q ∈ l, h'.cell q = none := by
  intro fuel
  induction fuel with
  | zero => intro h v t l hl; omega
  | succ fuel ih =>
    have hlist : ∀ (vs : List Val) (h : Heap) ts l, l.length < fuel → HoldsAll h vs ts l → l.Nodup → (∀ t ∈ ts, Tree.Light t) →
        ∃ h', destroyList (destroy fuel) h vs = .ok h' ∧ (∀ q, q ∉ l → h'.cell q = h.cell q) ∧ ∀ q ∈ l, h'.cell q = none := by
      intro vs
      induction vs with
      | nil =>
        intro h ts l _ H _ _
        cases H
        exact ⟨h, rfl, fun _ _ => rfl, by simp⟩
      | cons v vs ihv =>
        intro h ts l hl H nd ht
        cases H with
        | @cons _ t l1 _ ts ls h1 h2 =>
          obtain ⟨n1, n2, n3⟩ := List.nodup_append.mp nd
          obtain ⟨ha, e1, _, e3, _⟩ := destroy_spec fuel h v t l1 (by simp at hl; omega) h1 n1
          obtain ⟨ha', e1', e5⟩ := ih h v t l1 (by simp at hl; omega) h1 n1 (ht t (by simp))
          rw [e1] at e1'
          cases e1'
          have h2' : HoldsAll ha vs ts ls := holdsAll_mono h2 fun q hq => e3 q (fun hq' => n3 q hq' q hq rfl)
          obtain ⟨hb, f1, f3, f4⟩ := ihv ha ts ls (by simp at hl; omega) h2' n2 (fun u hu => ht u (by simp [hu]))
          refine ⟨hb, by simp [destroyList, e1, f1], ?_, ?_⟩
          · intro q hq
            simp only [List.mem_append, not_or] at hq
            rw [f3 q hq.2, e3 q hq.1]
          · intro q hq
            rcases List.mem_append.mp hq with hq | hq
            · rw [f3 q (fun hq' => n3 q hq q hq' rfl), e5 q hq]
            · exact f4 q hq
    intro h v t l hl H nd ht
    cases H with
    | undef => exact ⟨h, rfl, by simp⟩
    | bool => exact ⟨h, rfl, by simp⟩
    | int _ => cases ht
    | arr _ _ => cases ht
    | @str p z hp =>
      exact ⟨{ h with cell := fun q => if q = p then none else h.cell q }, by simp [destroy, Heap.deref, hp, Heap.free], by simp⟩
    | @obj p ks vs ts l hp hkl hall =>
      obtain ⟨np, nl⟩ := List.nodup_cons.mp nd
      cases ht with
      | obj ht =>
        obtain ⟨h1, e1, e3, e4⟩ := hlist vs h ts l (by simp at hl; omega) hall nl ht
        have hp1 : h1.cell p = some (.obj ks vs) := by rw [e3 p np, hp]
        refine ⟨{ h1 with cell := fun q => if q = p then none else h1.cell q }, by simp [destroy, Heap.deref, hp, e1, Heap.free, hp1], ?_⟩
        intro q hq
        by_cases e : q = p
        · simp [e]
        · simp only [List.mem_cons, e, false_or] at hq
          simp [e, e4 q hq]

/-! ### Assignment -/

theorem put_cell (h : Heap) (p : Nat) (c : Cell) : (h.put p c).cell p = some c := by simp [Heap.put]
theorem put_other (h : Heap) {p q : Nat} (c : Cell) (hq : q ≠ p) : (h.put p c).cell q = h.cell q := by simp [Heap.put, hq]
theorem put_next (h : Heap) (p : Nat) (c : Cell) : (h.put p c).next = h.next := rfl

theorem Heap.Fresh.put {h : Heap} (hf : h.Fresh) {p : Nat} (hp : p < h.next) (c : Cell) : (h.put p c).Fresh := by
  intro q hq
  rw [put_next] at hq
  rw [put_other h c (by omega)]
  exact hf q hq

theorem writeAt_ok {h : Heap} {d : Loc} {c : Cell} (hc : h.cell d.addr = some c) (hi : d.idx < c.kids.length) (v : Val) :
    writeAt h d v = .ok (h.put d.addr (c.withKids (c.kids.set d.idx v))) := by
  simp [writeAt, hc, hi]

theorem assignVal_spec {h : Heap} {d : Loc} {s : Val} {c : Cell} {x : Tree} {lx : List Nat} (hf : h.Fresh) (hc : h.cell d.addr = some c)
    (hi : d.idx < c.kids.length) (hwk : ∀ vs, (c.withKids vs).kids = vs) (hww : ∀ vs vs', (c.withKids vs).withKids vs' = c.withKids vs')
    (hd : d.addr < h.next) (Hs : Holds h s x lx) (nd : lx.Nodup) (hlt : ∀ q ∈ lx, q < h.next) (hsep : d.addr ∉ lx) :
    ∃ h' w' lw, assignVal h d s = .ok h' ∧ h'.cell d.addr = some (c.withKids (c.kids.set d.idx w')) ∧ h.next ≤ h'.next ∧
      (∀ q, q < h.next → q ≠ d.addr → h'.cell q = h.cell q) ∧ Holds h' w' x lw ∧ lw.Nodup ∧ (∀ q ∈ lw, h.next ≤ q ∧ q < h'.next) ∧ h'.Fresh := by
  obtain ⟨old, hold⟩ : ∃ old, readAt h d = .ok old := by
    refine ⟨c.kids[d.idx], ?_⟩
    simp [readAt, hc, hi]
  by_cases hu : s.ty = .undef
  · refine ⟨h.put d.addr (c.withKids (c.kids.set d.idx ⟨s.ty, old.bits⟩)), ⟨s.ty, old.bits⟩, [], ?_, put_cell _ _ _, le_refl _, ?_, ?_,
      List.nodup_nil, by simp, hf.put hd _⟩
    · simp [assignVal, hold, writeAt_ok hc hi, hu]
    · intro q _ hq; exact put_other h _ hq
    · obtain ⟨ty, b⟩ := s
      simp only at hu
      subst hu
      cases Hs
      exact .undef
  · have hc1 := put_cell h d.addr (c.withKids (c.kids.set d.idx ⟨s.ty, old.bits⟩))
    have Hs1 : Holds (h.put d.addr (c.withKids (c.kids.set d.idx ⟨s.ty, old.bits⟩))) s x lx :=
      holds_mono Hs fun q hq => put_other h _ (fun e => hsep (e ▸ hq))
    obtain ⟨h2, w, lw, e1, e2, e3, e4, e5, e6, e7⟩ := copy_spec (h.put d.addr (c.withKids (c.kids.set d.idx ⟨s.ty, old.bits⟩))).fuel _ s x lx
      (by have := length_le_of_lt nd hlt; simp [Heap.fuel, put_next]; omega) Hs1 (by simpa [put_next] using hlt)
    simp only [put_next] at e5
    have hc2 : h2.cell d.addr = some (c.withKids (c.kids.set d.idx ⟨s.ty, old.bits⟩)) := by
      rw [e3.2 d.addr (by simpa [put_next] using hd), hc1]
    have hle : h.next ≤ h2.next := by simpa [put_next] using e3.1
    refine ⟨h2.put d.addr (c.withKids (c.kids.set d.idx w)), w, lw, ?_, put_cell _ _ _, hle, ?_, ?_, e4, e5, ?_⟩
    · simp only [assignVal, hold, writeAt_ok hc hi, Res.ok_bind, hu, if_false, e1]
      rw [writeAt_ok hc2 (by rw [hwk]; simpa using hi), hwk, hww]
      simp
    · intro q hq hne
      rw [put_other _ _ hne, e3.2 q (by simpa [put_next] using hq), put_other _ _ hne]
    · exact holds_mono e2 fun q hq => put_other _ _ (by have := e5 q hq; omega)
    · exact (e6 (hf.put hd _)).put (by omega) _

end Eni.Owner
