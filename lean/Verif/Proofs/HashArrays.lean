import Verif.Model.HashArrays
import Verif.Proofs.HashWorld
/-!
# Bucket arrays: ownership

Helper lemmas, no property statements.
-/
set_option linter.unusedSectionVars false

namespace Eni
open Spec HashTable
variable {K V : Type} [DecidableEq K] {E : Type}

/-- table `t` with pointer `m` -/
structure HasArr (b : Blocks) (m : Option Nat) (t : Table E) : Prop where
  is : m.isSome = t.init
  live : ∀ p, m = some p → b.live p = true
  nil : t.init = false → t.nb = 0 ∧ t.ne = 0
  fresh : ∀ p, b.live p = true → p < b.next

/-- the array `m` has become the array `m'` -/
structure Swap (b : Blocks) (m : Option Nat) (b' : Blocks) (m' : Option Nat) : Prop where
  next : b.next ≤ b'.next
  live : ∀ q, b'.live q = true ↔ (b.live q = true ∧ m ≠ some q) ∨ m' = some q
  new : m' = m ∨ m' = none ∨ ∃ q, m' = some q ∧ b.next ≤ q
  fresh : ∀ p, b'.live p = true → p < b'.next

theorem Swap.refl {b : Blocks} {m : Option Nat} (hl : ∀ p, m = some p → b.live p = true) (hf : ∀ p, b.live p = true → p < b.next) :
    Swap b m b m :=
  ⟨le_refl _, fun q => ⟨fun h => by by_cases hq : m = some q <;> simp [h, hq], fun h => h.elim (·.1) (hl q)⟩, .inl rfl, hf⟩

theorem Swap.trans {b b1 b2 : Blocks} {m m1 m2 : Option Nat} (hf : ∀ p, b.live p = true → p < b.next) (S : Swap b m b1 m1)
    (S' : Swap b1 m1 b2 m2) : Swap b m b2 m2 := by
  refine ⟨le_trans S.next S'.next, fun q => ?_, ?_, S'.fresh⟩
  · rw [S'.live q, S.live q]
    have key : b.live q = true → m ≠ some q → m1 ≠ some q := by
      intro h1 h2 h3
      rcases S.new with h | h | ⟨r, h, h4⟩
      · exact h2 (h ▸ h3)
      · rw [h] at h3; cases h3
      · rw [h] at h3; cases h3
        have := hf _ h1; omega
    constructor
    · rintro (⟨h1 | h1, h2⟩ | h)
      · exact .inl h1
      · exact absurd h1 h2
      · exact .inr h
    · rintro (⟨h1, h2⟩ | h)
      · exact .inl ⟨.inl ⟨h1, h2⟩, key h1 h2⟩
      · exact .inr h
  · rcases S'.new with h | h | ⟨r, h, h4⟩
    · rw [h]; exact S.new
    · exact .inr (.inl h)
    · exact .inr (.inr ⟨r, h, le_trans S.next h4⟩)

namespace Blocks

theorem get_swap {b : Blocks} (hf : ∀ p, b.live p = true → p < b.next) : Swap b none b.get.1 (some b.get.2) := by
  refine ⟨by simp [get], fun q => ?_, .inr (.inr ⟨_, rfl, le_refl _⟩), fun p hp => ?_⟩
  · simp only [get]
    by_cases h : q = b.next
    · simp [h]
    · simp [h, Ne.symm h]
  · simp only [get] at hp ⊢
    split at hp
    · omega
    · have := hf p hp; omega

theorem free_swap {b : Blocks} {m : Option Nat} (hl : ∀ p, m = some p → b.live p = true) (hf : ∀ p, b.live p = true → p < b.next) :
    ∃ b', b.free m = .ok b' ∧ Swap b m b' none := by
  cases m with
  | none => exact ⟨b, rfl, Swap.refl hl hf⟩
  | some p =>
    refine ⟨{ b with live := fun q => if q = p then false else b.live q }, by simp only [free]; rw [if_pos (hl p rfl)], ⟨le_refl _, fun q => ?_, .inr (.inl rfl), fun q hq => ?_⟩⟩
    · by_cases h : q = p
      · simp [h]
      · simp [h, Ne.symm h]
    · simp only at hq
      split at hq
      · cases hq
      · exact hf q hq

/-- request, then release -/
theorem get_free {b : Blocks} {m : Option Nat} (hl : ∀ p, m = some p → b.live p = true) (hf : ∀ p, b.live p = true → p < b.next) :
    ∃ b', b.get.1.free m = .ok b' ∧ Swap b m b' (some b.get.2) := by
  have S := get_swap hf
  cases m with
  | none => exact ⟨_, rfl, S⟩
  | some p =>
    have hp := hf p (hl p rfl)
    refine ⟨{ b.get.1 with live := fun q => if q = p then false else b.get.1.live q }, by simp only [free]; rw [if_pos ((S.live p).mpr (.inl ⟨hl p rfl, by simp⟩))], ⟨S.next, fun q => ?_, S.new.imp (by simp) id, fun q hq => ?_⟩⟩
    · simp only
      split
      · next h => subst h; simp [get]; omega
      · next h => rw [S.live q]; simp [Ne.symm h]
    · simp only at hq
      split at hq
      · cases hq
      · exact S.fresh q hq

/-- release, then request -/
theorem free_get {b : Blocks} {m : Option Nat} (hl : ∀ p, m = some p → b.live p = true) (hf : ∀ p, b.live p = true → p < b.next) :
    ∃ b', b.free m = .ok b' ∧ Swap b m b'.get.1 (some b'.get.2) := by
  obtain ⟨b', h1, S⟩ := free_swap hl hf
  exact ⟨b', h1, S.trans hf (get_swap S.fresh)⟩

theorem touch_ok {b : Blocks} {m : Option Nat} (hs : m.isSome = true) (hl : ∀ p, m = some p → b.live p = true) : b.touch m = .ok () := by
  cases m with
  | none => cases hs
  | some p => simp [touch, hl p rfl]

end Blocks

theorem Swap.live_new {b b' : Blocks} {m m' : Option Nat} (S : Swap b m b' m') : ∀ p, m' = some p → b'.live p = true :=
  fun p h => (S.live p).mpr (.inr h)

namespace Table

theorem doRehashP_ok {b : Blocks} {m : Option Nat} {t t' : Table E} {n : Nat} (A : HasArr b m t) (h : doRehash t n = .ok t') :
    ∃ b' m', doRehashP b m t n = .ok (b', m', t') ∧ Swap b m b' m' ∧ HasArr b' m' t' := by
  have hi : t'.init = true := by
    unfold doRehash at h
    split at h
    · cases h
    · obtain ⟨bs, _, h2⟩ := Res.bind_eq_ok.mp h
      cases h2; rfl
  obtain ⟨b', h1, S⟩ := Blocks.get_free A.live A.fresh
  refine ⟨b', some b.get.2, ?_, S, ⟨by simp [hi], S.live_new, by simp [hi], S.fresh⟩⟩
  have ht : (b.get.1.lookAt t.nb m) = .ok () := by
    unfold Blocks.lookAt
    split
    · rfl
    · next hn =>
      refine Blocks.touch_ok ?_ fun p hp => ((Blocks.get_swap A.fresh).live p).mpr (.inl ⟨A.live p hp, by simp⟩)
      rw [A.is]
      by_contra hc
      exact hn (A.nil (by simpa using hc)).1
  simp only [doRehashP]
  show (Res.bind (b.get.1.lookAt t.nb m) _) = _
  rw [ht]
  show (Res.bind (doRehash t n) _) = _
  rw [h]
  show (Res.bind (b.get.1.free m) _) = _
  rw [h1]
  rfl

theorem mayRehashP_ok {b : Blocks} {m : Option Nat} {t t' : Table E} (A : HasArr b m t) (h : mayRehash t = .ok t') :
    ∃ b' m', mayRehashP b m t = .ok (b', m', t') ∧ Swap b m b' m' ∧ HasArr b' m' t' := by
  unfold mayRehash at h
  unfold mayRehashP
  split at h
  · next hc => rw [if_pos hc]; exact doRehashP_ok A h
  · next hc =>
    rw [if_neg hc]
    split at h
    · next hd => rw [if_pos hd]; exact doRehashP_ok A h
    · next hd => rw [if_neg hd]; cases h; exact ⟨b, m, rfl, Swap.refl A.live A.fresh, A⟩

theorem initP_ok {b : Blocks} {m : Option Nat} {t : Table E} (A : HasArr b m t) :
    Swap b m (initP b m t).1 (initP b m t).2 ∧ (initP b m t).2.isSome = true := by
  unfold initP
  split
  · next h =>
    have hm : m = none := by have := A.is; rw [h] at this; simpa using this
    subst hm
    exact ⟨Blocks.get_swap A.fresh, rfl⟩
  · next h => exact ⟨Swap.refl A.live A.fresh, by rw [A.is]; simpa using h⟩

theorem lookup_init {hash : K → UInt32} {keyOf : E → Option K} {t t' : Table E} {k : K} {i : Nat}
    (h : lookupBucketFor hash keyOf t k = .ok (t', i)) : t'.init = true := by
  unfold lookupBucketFor at h
  by_cases hn : (if t.init = false then initTable 16 else t).nb = 0
  · simp only [hn, if_true] at h; cases h
  · simp only [hn, if_false] at h
    obtain ⟨⟨bs, j⟩, _, h2⟩ := Res.bind_eq_ok.mp h
    cases h2
    show (if t.init = false then initTable 16 else t).init = true
    split
    · rfl
    · next h => simpa using h

theorem insertEP_ok {hash : K → UInt32} {keyOf : E → Option K} {b : Blocks} {m : Option Nat} {t t' : Table E} {k : K} {mk : E} {i : Nat} {x : Bool}
    (A : HasArr b m t) (h : insertE hash keyOf t k mk = .ok (t', i, x)) :
    ∃ b' m', insertEP hash keyOf b m t k mk = .ok (b', m', t', i, x) ∧ Swap b m b' m' ∧ HasArr b' m' t' := by
  obtain ⟨S, hs⟩ := initP_ok A
  obtain ⟨⟨t1, j⟩, h1, h⟩ := Res.bind_eq_ok.mp h
  have hi := lookup_init h1
  have e : insertEP hash keyOf b m t k mk = Res.bind ((initP b m t).1.touch (initP b m t).2) fun _ =>
      Res.bind (lookupBucketFor hash keyOf t k) fun r => match r.1.buckets[r.2]? with
        | none => .ub .outOfBounds
        | some bk => match bk.slot with
          | .full _ => .ok ((initP b m t).1, (initP b m t).2, r.1, r.2, true)
          | s =>
            let nt := match s with
              | .tomb => sub32 r.1.nt 1
              | _ => r.1.nt
            Res.bind (mayRehashP (initP b m t).1 (initP b m t).2 { r.1 with buckets := r.1.buckets.set r.2 { bk with slot := .full mk }, nt := nt, ne := w32 (r.1.ne + 1) })
              fun q => .ok (q.1, q.2.1, q.2.2, r.2, false) := rfl
  rw [e, Blocks.touch_ok hs S.live_new]
  show ∃ b' m', Res.bind (lookupBucketFor hash keyOf t k) _ = _ ∧ _
  rw [h1]
  simp only [Res.bind]
  simp only at h
  cases hb : t1.buckets[j]? with
  | none => rw [hb] at h; cases h
  | some bk =>
    rw [hb] at h
    simp only at h ⊢
    have A1 : ∀ u : Table E, u.init = true → HasArr (initP b m t).1 (initP b m t).2 u :=
      fun u hu => ⟨by rw [hs, hu], S.live_new, by simp [hu], S.fresh⟩
    cases hk : bk.slot with
    | full e =>
      rw [hk] at h; simp only at h
      cases h
      exact ⟨_, _, rfl, S, A1 _ hi⟩
    | tomb =>
      rw [hk] at h; simp only at h
      obtain ⟨t2, h2, h⟩ := Res.bind_eq_ok.mp h
      cases h
      obtain ⟨b', m', h3, S', A'⟩ := mayRehashP_ok (b := (initP b m t).1) (m := (initP b m t).2) (by exact A1 _ hi) h2
      simp only
      rw [h3]
      exact ⟨b', m', rfl, S.trans A.fresh S', A'⟩
    | empty =>
      rw [hk] at h; simp only at h
      obtain ⟨t2, h2, h⟩ := Res.bind_eq_ok.mp h
      cases h
      obtain ⟨b', m', h3, S', A'⟩ := mayRehashP_ok (b := (initP b m t).1) (m := (initP b m t).2) (by exact A1 _ hi) h2
      simp only
      rw [h3]
      exact ⟨b', m', rfl, S.trans A.fresh S', A'⟩

theorem findP_ok {b : Blocks} {m : Option Nat} {t : Table E} (A : HasArr b m t) : findP b m t = .ok () := by
  unfold findP
  split
  · rfl
  · next h => exact Blocks.touch_ok (by rw [A.is]; simpa using h) A.live

theorem eraseEP_ok {hash : K → UInt32} {keyOf : E → Option K} {b : Blocks} {m : Option Nat} {t t' : Table E} {k : K} {r : Option E}
    (A : HasArr b m t) (h : eraseE hash keyOf t k = .ok (t', r)) :
    ∃ b' m', eraseEP hash keyOf b m t k = .ok (b', m', t', r) ∧ Swap b m b' m' ∧ HasArr b' m' t' := by
  unfold eraseE at h
  obtain ⟨o, h1, h⟩ := Res.bind_eq_ok.mp h
  unfold eraseEP
  show ∃ b' m', Res.bind (findP b m t) _ = _ ∧ _
  rw [findP_ok A]
  show ∃ b' m', Res.bind (findKey hash keyOf t k) _ = _ ∧ _
  rw [h1]
  simp only [Res.bind]
  cases o with
  | none => cases h; exact ⟨b, m, rfl, Swap.refl A.live A.fresh, A⟩
  | some i =>
    simp only at h ⊢
    split at h
    · next hc =>
      rw [if_pos hc]
      cases hb : t.buckets[i]? with
      | none => rw [hb] at h; cases h
      | some bk =>
        rw [hb] at h
        simp only at h ⊢
        cases hk : bk.slot with
        | full e =>
          rw [hk] at h; simp only at h
          obtain ⟨t2, h2, h⟩ := Res.bind_eq_ok.mp h
          cases h
          have hi : t.init = true := by
            by_contra hc
            have hc : t.init = false := by simpa using hc
            simp [findKey, hc] at h1
          obtain ⟨b', m', h3, S', A'⟩ := mayRehashP_ok (b := b) (m := m) (by exact ⟨A.is, A.live, by simp [hi], A.fresh⟩) h2
          rw [h3]
          exact ⟨b', m', rfl, S', A'⟩
        | tomb => rw [hk] at h; cases h
        | empty => rw [hk] at h; cases h
    · cases h

end Table

namespace HashTable
variable {hash : K → UInt32} {dflt : V}

theorem insertP_ok {b : Blocks} {m : Option Nat} {h h' : Heap K V} {t t' : Table Nat} {k : K} {p : Nat} {x : Bool}
    (A : HasArr b m t) (hr : insert hash dflt h t k = .ok (h', t', p, x)) :
    ∃ b' m', insertP hash dflt b m h t k = .ok (b', m', h', t', p, x) ∧ Swap b m b' m' ∧ HasArr b' m' t' := by
  unfold insert at hr
  unfold insertP
  simp only at hr ⊢
  obtain ⟨⟨t1, i, e⟩, h1, hr⟩ := Res.bind_eq_ok.mp hr
  obtain ⟨b', m', h2, S, A'⟩ := Table.insertEP_ok A h1
  show ∃ b' m', Res.bind (Table.insertEP _ _ _ _ _ _ _) _ = _ ∧ _
  rw [h2]
  simp only [Res.bind]
  simp only at hr
  cases e with
  | false => simp only [Bool.false_eq_true, if_false] at hr ⊢; cases hr; exact ⟨b', m', rfl, S, A'⟩
  | true =>
    simp only [if_true] at hr ⊢
    split at hr
    · next q e => cases hr; rw [e]; exact ⟨b', m', rfl, S, A'⟩
    · cases hr

theorem eraseP_ok {b : Blocks} {m : Option Nat} {h h' : Heap K V} {t t' : Table Nat} {k : K} {x : Bool}
    (A : HasArr b m t) (hr : erase hash h t k = .ok (h', t', x)) :
    ∃ b' m', eraseP hash b m h t k = .ok (b', m', h', t', x) ∧ Swap b m b' m' ∧ HasArr b' m' t' := by
  unfold erase at hr
  unfold eraseP
  obtain ⟨⟨t1, r⟩, h1, hr⟩ := Res.bind_eq_ok.mp hr
  obtain ⟨b', m', h2, S, A'⟩ := Table.eraseEP_ok A h1
  show ∃ b' m', Res.bind (Table.eraseEP _ _ _ _ _ _) _ = _ ∧ _
  rw [h2]
  simp only [Res.bind]
  simp only at hr
  cases r with
  | none => cases hr; exact ⟨b', m', rfl, S, A'⟩
  | some p =>
    obtain ⟨h3, h4, hr⟩ := Res.bind_eq_ok.mp hr
    cases hr
    refine ⟨b', m', ?_, S, A'⟩
    show Res.bind (h.free p) _ = _
    rw [h4]; rfl

theorem null_arr {b : Blocks} (hf : ∀ p, b.live p = true → p < b.next) : HasArr b none (Table.null : Table E) :=
  ⟨rfl, by simp, fun _ => ⟨rfl, rfl⟩, hf⟩

theorem clearP_ok {b : Blocks} {m : Option Nat} {h h' : Heap K V} {t t' : Table Nat} (A : HasArr b m t) (hr : clear h t = .ok (h', t')) :
    ∃ b' m', clearP b m h t = .ok (b', m', h', t') ∧ Swap b m b' m' ∧ HasArr b' m' t' := by
  unfold clear at hr
  unfold clearP
  split at hr
  · next hc => rw [if_pos hc]; cases hr; exact ⟨b, m, rfl, Swap.refl A.live A.fresh, A⟩
  · next hc =>
    rw [if_neg hc]
    obtain ⟨h1, h2, hr⟩ := Res.bind_eq_ok.mp hr
    cases hr
    obtain ⟨b', h3, S⟩ := Blocks.free_swap A.live A.fresh
    refine ⟨b', none, ?_, S, null_arr S.fresh⟩
    show Res.bind (b.touch m) _ = _
    rw [Blocks.touch_ok (by rw [A.is]; by_contra hi; exact hc (A.nil (by simpa using hi)).2) A.live]
    show Res.bind (h.freeAll t.entries) _ = _
    rw [h2]
    show Res.bind (b.free m) _ = _
    rw [h3]; rfl

theorem destroyP_ok {b : Blocks} {m : Option Nat} {h h' : Heap K V} {t : Table Nat} (A : HasArr b m t) (hr : destroy h t = .ok h') :
    ∃ b', destroyP b m h t = .ok (b', h') ∧ Swap b m b' none := by
  unfold destroy at hr
  obtain ⟨⟨h1, t1⟩, h2, hr⟩ := Res.bind_eq_ok.mp hr
  cases hr
  obtain ⟨b1, m1, h3, S, A1⟩ := clearP_ok A h2
  obtain ⟨b2, h4, S2⟩ := Blocks.free_swap A1.live A1.fresh
  refine ⟨b2, ?_, S.trans A.fresh S2⟩
  show Res.bind (clearP b m h t) _ = _
  rw [h3]
  show Res.bind (b1.free m1) _ = _
  rw [h4]; rfl

theorem copy_init {h h' : Heap K V} {t t' : Table Nat} (hr : copy h t = .ok (h', t')) : t'.init = true := by
  unfold copy at hr
  split at hr
  · cases hr; rfl
  · obtain ⟨r, _, hr⟩ := Res.bind_eq_ok.mp hr
    cases hr; rfl

theorem copyAssign_init {h h' : Heap K V} {d t t' : Table Nat} (hr : copyAssign h d t = .ok (h', t')) : t'.init = true := by
  unfold copyAssign at hr
  obtain ⟨r, _, hr⟩ := Res.bind_eq_ok.mp hr
  cases hr; rfl

theorem copyP_ok {b : Blocks} {m : Option Nat} {h h' : Heap K V} {t t' : Table Nat} (A : HasArr b m t) (hr : copy h t = .ok (h', t')) :
    ∃ b' m', copyP b m h t = .ok (b', m', h', t') ∧ Swap b none b' m' ∧ HasArr b' m' t' := by
  have S := Blocks.get_swap A.fresh
  have hi := copy_init hr
  refine ⟨b.get.1, some b.get.2, ?_, S, ⟨by simp [hi], S.live_new, by simp [hi], S.fresh⟩⟩
  have ht : (b.get.1.lookAt t.nb m) = .ok () := by
    unfold Blocks.lookAt
    split
    · rfl
    · next hn =>
      refine Blocks.touch_ok ?_ fun p hp => (S.live p).mpr (.inl ⟨A.live p hp, by simp⟩)
      rw [A.is]
      by_contra hc
      exact hn (A.nil (by simpa using hc)).1
  show Res.bind (b.get.1.lookAt t.nb m) _ = _
  rw [ht]
  show Res.bind (copy h t) _ = _
  rw [hr]; rfl

theorem copyAssignP_ok {b : Blocks} {md ms : Option Nat} {h h' : Heap K V} {d t t' : Table Nat} (D : HasArr b md d) (A : HasArr b ms t)
    (hne : ∀ p, md = some p → ms ≠ some p) (hr : copyAssign h d t = .ok (h', t')) :
    ∃ b' m', copyAssignP b md ms h d t = .ok (b', m', h', t') ∧ Swap b md b' m' ∧ HasArr b' m' t' := by
  have hi := copyAssign_init hr
  obtain ⟨b1, h1, S1⟩ := Blocks.free_swap D.live D.fresh
  have hf : (b.freeIf d.init md) = .ok b1 := by
    unfold Blocks.freeIf
    split
    · exact h1
    · next hd =>
      have hm : md = none := by have := D.is; rw [show d.init = false by simpa using hd] at this; simpa using this
      subst hm; exact h1
  have S := S1.trans D.fresh (Blocks.get_swap S1.fresh)
  refine ⟨b1.get.1, some b1.get.2, ?_, S, ⟨by simp [hi], S.live_new, by simp [hi], S.fresh⟩⟩
  have ht : (b1.get.1.lookAt t.nb ms) = .ok () := by
    unfold Blocks.lookAt
    split
    · rfl
    · next hn =>
      refine Blocks.touch_ok ?_ fun p hp => (S.live p).mpr (.inl ⟨A.live p hp, fun hd => hne p hd hp⟩)
      rw [A.is]
      by_contra hc
      exact hn (A.nil (by simpa using hc)).1
  show Res.bind (b.freeIf d.init md) _ = _
  rw [hf]
  show Res.bind (b1.get.1.lookAt t.nb ms) _ = _
  rw [ht]
  show Res.bind (copyAssign h d t) _ = _
  rw [hr]; rfl

end HashTable

namespace PWorld
variable {hash : K → UInt32} {dflt : V}

/-- `M`: the arrays that no table knows -/
structure PInv (s : PWorld K V) (M : List Nat) : Prop where
  dead : ∀ i, s.w.tabs i = none → s.ptr i = none
  arr : ∀ i t, s.w.tabs i = some t → HasArr s.mem (s.ptr i) t
  inj : ∀ i j p, s.ptr i = some p → s.ptr j = some p → i = j
  own : ∀ p, s.mem.live p = true → (∃ i, s.ptr i = some p) ∨ p ∈ M
  lostLive : ∀ p ∈ M, s.mem.live p = true
  lostFree : ∀ p ∈ M, ∀ i, s.ptr i ≠ some p
  lostNodup : M.Nodup
  fresh : ∀ p, s.mem.live p = true → p < s.mem.next

theorem start_inv : PInv (start : PWorld K V) [] :=
  ⟨fun _ _ => rfl, fun _ _ h => by simp [start, World.start] at h, fun _ _ _ h => by simp [start] at h, fun _ h => by simp [start, Blocks.init] at h,
    by simp, by simp, by simp, fun _ h => by simp [start, Blocks.init] at h⟩

theorem PInv.live {s : PWorld K V} {M : List Nat} (I : PInv s M) {i p : Nat} (h : s.ptr i = some p) : s.mem.live p = true := by
  cases ht : s.w.tabs i with
  | none => rw [I.dead i ht] at h; cases h
  | some t => exact (I.arr i t ht).live p h

/-- one variable changes its array -/
theorem PInv.put {s : PWorld K V} {M : List Nat} (I : PInv s M) {i : Nat} {b : Blocks} {m : Option Nat} {h : Heap K V} {t : Option (Table Nat)}
    (S : Swap s.mem (s.ptr i) b m) (ht : match t with | none => m = none | some t => HasArr b m t) : PInv (s.put i b m h t) M := by
  have fr : ∀ q, m = some q → m ≠ s.ptr i → s.mem.next ≤ q := by
    intro q hq hne
    rcases S.new with h | h | ⟨r, h, h4⟩
    · exact absurd h hne
    · rw [h] at hq; cases hq
    · rw [h] at hq; cases hq; exact h4
  have other : ∀ j p, j ≠ i → s.ptr j = some p → b.live p = true ∧ m ≠ some p := by
    intro j p hj hp
    have h1 := I.live hp
    have h2 : s.ptr i ≠ some p := fun h => hj (I.inj j i p hp h)
    refine ⟨(S.live p).mpr (.inl ⟨h1, h2⟩), fun hm => ?_⟩
    have := fr p hm (by rw [hm]; exact Ne.symm h2)
    have := I.fresh p h1
    omega
  refine ⟨fun j hj => ?_, fun j u hu => ?_, fun j l p hj hl => ?_, fun p hp => ?_, fun p hp => ?_, fun p hp j => ?_, I.lostNodup, S.fresh⟩
  · simp only [PWorld.put, World.setTab] at hj ⊢
    split
    · next h => rw [if_pos h] at hj; subst hj; exact ht
    · next h => rw [if_neg h] at hj; exact I.dead j hj
  · simp only [PWorld.put, World.setTab] at hu ⊢
    split
    · next h => rw [if_pos h] at hu; subst hu; exact ht
    · next h =>
      rw [if_neg h] at hu
      have A := I.arr j u hu
      exact ⟨A.is, fun p hp => (other j p h hp).1, A.nil, S.fresh⟩
  · simp only [PWorld.put] at hj hl
    split at hj
    · next h =>
      split at hl
      · next h' => rw [h, h']
      · next h' => exact absurd hj (other l p h' hl).2
    · next h =>
      split at hl
      · next h' => exact absurd hl (other j p h hj).2
      · exact I.inj j l p hj hl
  · rcases (S.live p).mp hp with ⟨h1, h2⟩ | h1
    · rcases I.own p h1 with ⟨j, hj⟩ | h
      · refine .inl ⟨j, ?_⟩
        have : j ≠ i := by rintro rfl; exact h2 hj
        simp [PWorld.put, this, hj]
      · exact .inr h
    · exact .inl ⟨i, by simp [PWorld.put, h1]⟩
  · exact (S.live p).mpr (.inl ⟨I.lostLive p hp, I.lostFree p hp i⟩)
  · simp only [PWorld.put]
    split
    · intro hm
      have := fr p hm (by rw [hm]; exact Ne.symm (I.lostFree p hp i))
      have := I.fresh p (I.lostLive p hp)
      omega
    · exact I.lostFree p hp j

/-- a table is moved to another variable, whose own array is lost -/
theorem PInv.moved {s : PWorld K V} {M : List Nat} (I : PInv s M) {i j : Nat} {t : Table Nat} (hij : i ≠ j) (ht : s.w.tabs j = some t) (h h2 : Heap K V) :
    PInv ((s.put j s.mem none h (some Table.null)).put i s.mem (s.ptr j) h2 (some t)) ((s.ptr i).toList ++ M) := by
  have ptr : ∀ l, ((s.put j s.mem none h (some Table.null)).put i s.mem (s.ptr j) h2 (some t)).ptr l =
      if l = i then s.ptr j else if l = j then none else s.ptr l := fun l => rfl
  have tabs : ∀ l, ((s.put j s.mem none h (some Table.null)).put i s.mem (s.ptr j) h2 (some t)).w.tabs l =
      if l = i then some t else if l = j then some Table.null else s.w.tabs l := fun l => rfl
  refine ⟨fun l hl => ?_, fun l u hu => ?_, fun l k p hl hk => ?_, fun p hp => ?_, fun p hp => ?_, fun p hp l => ?_, ?_, I.fresh⟩
  · rw [tabs] at hl; rw [ptr]
    split at hl
    · cases hl
    · next h1 =>
      split at hl
      · cases hl
      · next h3 => rw [if_neg h1, if_neg h3]; exact I.dead l hl
  · rw [tabs] at hu; rw [ptr]
    split at hu
    · next h1 => cases hu; rw [if_pos h1]; exact I.arr j t ht
    · next h1 =>
      rw [if_neg h1]
      split at hu
      · next h3 => cases hu; rw [if_pos h3]; exact null_arr I.fresh
      · next h3 => rw [if_neg h3]; exact I.arr l u hu
  · rw [ptr] at hl hk
    split at hl
    · next h1 =>
      split at hk
      · next h3 => rw [h1, h3]
      · split at hk
        · cases hk
        · next h4 => exact absurd (I.inj k j p hk hl) h4
    · split at hl
      · cases hl
      · next h4 =>
        split at hk
        · exact absurd (I.inj l j p hl hk) h4
        · split at hk
          · cases hk
          · exact I.inj l k p hl hk
  · rcases I.own p hp with ⟨l, hl⟩ | h
    · by_cases h1 : l = i
      · subst h1; exact .inr (List.mem_append_left _ (by simp [hl]))
      · by_cases h3 : l = j
        · subst h3; exact .inl ⟨i, by rw [ptr, if_pos rfl]; exact hl⟩
        · exact .inl ⟨l, by rw [ptr, if_neg h1, if_neg h3]; exact hl⟩
    · exact .inr (List.mem_append_right _ h)
  · rcases List.mem_append.mp hp with h | h
    · exact I.live (by simpa using h)
    · exact I.lostLive p h
  · rw [ptr]
    rcases List.mem_append.mp hp with h | h
    · have h : s.ptr i = some p := by simpa using h
      split
      · intro hc; exact hij (I.inj i j p h hc)
      · next h1 =>
        split
        · simp
        · intro hc; exact h1 (I.inj l i p hc h)
    · split
      · exact I.lostFree p h j
      · split
        · simp
        · exact I.lostFree p h l
  · refine List.nodup_append.mpr ⟨by cases s.ptr i <;> simp, I.lostNodup, ?_⟩
    rintro p hp q hq rfl
    exact I.lostFree p hq i (by simpa using hp)

/-- the arrays lost by a statement -/
def loses (s : PWorld K V) : Stmt K V → Nat
  | .moveAssign i j => if i = j then 0 else (s.ptr i).toList.length
  | _ => 0

theorem put_w (s : PWorld K V) (i : Nat) (b : Blocks) (m : Option Nat) (h : Heap K V) (t : Option (Table Nat)) :
    (s.put i b m h t).w = { s.w with heap := h }.setTab i t := rfl

theorem tab_of {w : World K V} {i : Nat} {t : Table Nat} (h : w.tab i = .ok t) : w.tabs i = some t := by
  unfold World.tab at h
  split at h
  · next e => cases h; exact e
  · cases h

/-- where the rules construct a variable -/
def Builds (w : World K V) : Stmt K V → Prop
  | .new i _ | .copyNew i _ | .moveNew i _ => w.tabs i = none
  | .copyAssign i j => i ≠ j
  | _ => True

theorem step_ok {s : PWorld K V} {M : List Nat} (I : PInv s M) {st : Stmt K V} {w' : World K V} (hb : Builds s.w st)
    (h : World.step hash dflt s.w st = .ok w') :
    ∃ s' M', step hash dflt s st = .ok s' ∧ s'.w = w' ∧ PInv s' M' ∧ M'.length = loses s st + M.length ∧ M ⊆ M' := by
  have one : ∀ {i : Nat} {b : Blocks} {m : Option Nat} {h : Heap K V} {t : Option (Table Nat)} {r : Res (PWorld K V)} {w' : World K V},
      loses s st = 0 → r = .ok (s.put i b m h t) → { s.w with heap := h }.setTab i t = w' → Swap s.mem (s.ptr i) b m →
      (match t with | none => m = none | some t => HasArr b m t) →
      ∃ s' M', r = .ok s' ∧ s'.w = w' ∧ PInv s' M' ∧ M'.length = loses s st + M.length ∧ M ⊆ M' :=
    fun h0 hr hw S A => ⟨_, M, hr, hw, I.put S A, by rw [h0]; simp, fun _ h => h⟩
  cases st with
  | new i n =>
    cases h
    have hp : s.ptr i = none := I.dead i hb
    by_cases hi : (Table.new n : Table Nat).init = true
    · refine one rfl (by simp only [step]; rw [if_pos hi]) rfl (by rw [hp]; exact Blocks.get_swap I.fresh) ⟨by simp [hi], ?_, by simp [hi], ?_⟩
      · exact (Blocks.get_swap I.fresh).live_new
      · exact (Blocks.get_swap I.fresh).fresh
    · have hn : (Table.new n : Table Nat) = Table.null := by
        unfold Table.new at hi ⊢
        split
        · next h => rw [if_pos h] at hi; exact absurd rfl hi
        · rfl
      refine one rfl (by simp only [step]; rw [if_neg hi]) rfl (by rw [hp]; exact Swap.refl (by simp) I.fresh) ?_
      rw [hn]; exact null_arr I.fresh
  | copyNew i j =>
    obtain ⟨t, h1, h⟩ := Res.bind_eq_ok.mp h
    obtain ⟨⟨h', t'⟩, h2, h⟩ := Res.bind_eq_ok.mp h
    cases h
    obtain ⟨b', m', h3, S, A⟩ := copyP_ok (I.arr j t (tab_of h1)) h2
    have hp : s.ptr i = none := I.dead i hb
    refine one rfl ?_ rfl (by rw [hp]; exact S) A
    show Res.bind (s.w.tab j) _ = _
    rw [h1]
    show Res.bind (copyP _ _ _ _) _ = _
    rw [h3]; rfl
  | moveNew i j =>
    obtain ⟨t, h1, h⟩ := Res.bind_eq_ok.mp h
    cases h
    have hij : i ≠ j := by
      rintro rfl
      have := tab_of h1
      rw [show s.w.tabs i = none from hb] at this; cases this
    have hp : s.ptr i = none := I.dead i hb
    refine ⟨_, _, ?_, ?_, I.moved hij (tab_of h1) s.w.heap s.w.heap, by simp [hp, loses], by simp⟩
    · show Res.bind (s.w.tab j) _ = _
      rw [h1]; rfl
    · rfl
  | copyAssign i j =>
    obtain ⟨ti, h1, h⟩ := Res.bind_eq_ok.mp h
    obtain ⟨tj, h2, h⟩ := Res.bind_eq_ok.mp h
    have hij : i ≠ j := hb
    simp only [if_neg hij] at h
    obtain ⟨⟨h', t'⟩, h3, h⟩ := Res.bind_eq_ok.mp h
    cases h
    obtain ⟨b', m', h4, S, A⟩ := copyAssignP_ok (I.arr i ti (tab_of h1)) (I.arr j tj (tab_of h2))
      (fun p hp hq => hij (I.inj i j p hp hq)) h3
    refine one rfl ?_ rfl S A
    show Res.bind (s.w.tab i) _ = _
    rw [h1]
    show Res.bind (s.w.tab j) _ = _
    rw [h2]
    simp only [Res.bind, if_neg hij]
    show Res.bind (copyAssignP _ _ _ _ _ _) _ = _
    rw [h4]; rfl
  | moveAssign i j =>
    obtain ⟨ti, h1, h⟩ := Res.bind_eq_ok.mp h
    obtain ⟨tj, h2, h⟩ := Res.bind_eq_ok.mp h
    by_cases hij : i = j
    · rw [if_pos hij] at h
      cases h
      refine ⟨s, M, ?_, rfl, I, by simp [loses, hij], fun _ h => h⟩
      show Res.bind (s.w.tab i) _ = _
      rw [h1]
      show Res.bind (s.w.tab j) _ = _
      rw [h2]
      show (if i = j then _ else _) = _
      rw [if_pos hij]
    · rw [if_neg hij] at h
      cases h
      refine ⟨_, _, ?_, ?_, I.moved hij (tab_of h2) s.w.heap s.w.heap, by simp [loses, hij], by simp⟩
      · show Res.bind (s.w.tab i) _ = _
        rw [h1]
        show Res.bind (s.w.tab j) _ = _
        rw [h2]
        show (if i = j then _ else _) = _
        rw [if_neg hij]; rfl
      · rfl
  | destroy i =>
    obtain ⟨t, h1, h⟩ := Res.bind_eq_ok.mp h
    obtain ⟨h', h2, h⟩ := Res.bind_eq_ok.mp h
    cases h
    obtain ⟨b', h3, S⟩ := destroyP_ok (I.arr i t (tab_of h1)) h2
    refine one rfl ?_ rfl S rfl
    show Res.bind (s.w.tab i) _ = _
    rw [h1]
    show Res.bind (destroyP _ _ _ _) _ = _
    rw [h3]; rfl
  | insert i k =>
    obtain ⟨t, h1, h⟩ := Res.bind_eq_ok.mp h
    obtain ⟨⟨h', t', p, x⟩, h2, h⟩ := Res.bind_eq_ok.mp h
    cases h
    obtain ⟨b', m', h3, S, A⟩ := insertP_ok (I.arr i t (tab_of h1)) h2
    refine one rfl ?_ rfl S A
    show Res.bind (s.w.tab i) _ = _
    rw [h1]
    show Res.bind (insertP _ _ _ _ _ _ _) _ = _
    rw [h3]; rfl
  | assign i k v =>
    obtain ⟨t, h1, h⟩ := Res.bind_eq_ok.mp h
    obtain ⟨⟨h', t', p, x⟩, h2, h⟩ := Res.bind_eq_ok.mp h
    cases h
    obtain ⟨⟨h4, t4, p4, x4⟩, h5, h2⟩ := Res.bind_eq_ok.mp h2
    obtain ⟨h6, h7, h2⟩ := Res.bind_eq_ok.mp h2
    cases h2
    obtain ⟨b', m', h3, S, A⟩ := insertP_ok (I.arr i t (tab_of h1)) h5
    refine one rfl ?_ rfl S A
    show Res.bind (s.w.tab i) _ = _
    rw [h1]
    show Res.bind (insertP _ _ _ _ _ _ _) _ = _
    rw [h3]
    show Res.bind (Heap.setVal _ _ _) _ = _
    rw [h7]; rfl
  | erase i k =>
    obtain ⟨t, h1, h⟩ := Res.bind_eq_ok.mp h
    obtain ⟨⟨h', t', x⟩, h2, h⟩ := Res.bind_eq_ok.mp h
    cases h
    obtain ⟨b', m', h3, S, A⟩ := eraseP_ok (I.arr i t (tab_of h1)) h2
    refine one rfl ?_ rfl S A
    show Res.bind (s.w.tab i) _ = _
    rw [h1]
    show Res.bind (eraseP _ _ _ _ _ _) _ = _
    rw [h3]; rfl
  | find i k =>
    obtain ⟨t, h1, h⟩ := Res.bind_eq_ok.mp h
    obtain ⟨o, h2, h⟩ := Res.bind_eq_ok.mp h
    cases h
    refine ⟨s, M, ?_, rfl, I, by simp [loses], fun _ h => h⟩
    show Res.bind (s.w.tab i) _ = _
    rw [h1]
    show Res.bind (Table.findP _ _ _) _ = _
    rw [Table.findP_ok (I.arr i t (tab_of h1))]
    show Res.bind (lookup _ _ _ _) _ = _
    rw [h2]; rfl
  | clear i =>
    obtain ⟨t, h1, h⟩ := Res.bind_eq_ok.mp h
    obtain ⟨⟨h', t'⟩, h2, h⟩ := Res.bind_eq_ok.mp h
    cases h
    obtain ⟨b', m', h3, S, A⟩ := clearP_ok (I.arr i t (tab_of h1)) h2
    refine one rfl ?_ rfl S A
    show Res.bind (s.w.tab i) _ = _
    rw [h1]
    show Res.bind (clearP _ _ _ _) _ = _
    rw [h3]; rfl
  | rehash i =>
    obtain ⟨t, h1, h⟩ := Res.bind_eq_ok.mp h
    obtain ⟨t', h2, h⟩ := Res.bind_eq_ok.mp h
    cases h
    obtain ⟨b', m', h3, S, A⟩ := Table.mayRehashP_ok (I.arr i t (tab_of h1)) h2
    refine one rfl ?_ rfl S A
    show Res.bind (s.w.tab i) _ = _
    rw [h1]
    show Res.bind (Table.mayRehashP _ _ _) _ = _
    rw [h3]; rfl
  | rehashN i n =>
    obtain ⟨t, h1, h⟩ := Res.bind_eq_ok.mp h
    obtain ⟨t', h2, h⟩ := Res.bind_eq_ok.mp h
    cases h
    obtain ⟨b', m', h3, S, A⟩ := Table.doRehashP_ok (I.arr i t (tab_of h1)) h2
    refine one rfl ?_ rfl S A
    show Res.bind (s.w.tab i) _ = _
    rw [h1]
    show Res.bind (Table.doRehashP _ _ _ _) _ = _
    rw [h3]; rfl

theorem builds_of {w : World K V} {a : MWorld K V} {L : List Nat} (R : World.WRel hash w a L) {st : Stmt K V} (hp : MPre a st) : Builds w st := by
  cases st <;> simp only [MPre, Builds] at hp ⊢
  · exact R.get_none hp.1
  · exact R.get_none hp.1
  · exact R.get_none hp.1
  · exact hp.1

theorem loses_eq {s : PWorld K V} {M : List Nat} (I : PInv s M) {a : MWorld K V} {L : List Nat} (R : World.WRel hash s.w a L) {st : Stmt K V}
    (hp : MPre a st) : loses s st = drops a st := by
  cases st with
  | moveAssign i j =>
    obtain ⟨⟨x, hx⟩, _⟩ := hp
    obtain ⟨t, ht, V⟩ := R.get hx
    have h1 := (I.arr i t ht).is
    rw [V.arr] at h1
    simp only [loses, drops, hx]
    by_cases hij : i = j
    · simp [hij]
    · rw [if_neg hij]
      cases hq : s.ptr i <;> simp [hq] at h1 <;> simp [← h1, hij]
  | _ => rfl

theorem run_ok : ∀ (ss : List (Stmt K V)) (s : PWorld K V) (a : MWorld K V) (L M : List Nat), PInv s M → World.WRel hash s.w a L → MPres dflt a ss →
    ∃ s' L' M', run hash dflt s ss = .ok s' ∧ World.run hash dflt s.w ss = .ok s'.w ∧ PInv s' M' ∧ World.WRel hash s'.w (mrun dflt a ss) L' ∧
      M'.length = dropped dflt a ss + M.length := by
  intro ss
  induction ss with
  | nil => intro s a L M I R _; exact ⟨s, L, M, rfl, rfl, I, R, by simp [dropped]⟩
  | cons st ss ih =>
    intro s a L M I R hp
    obtain ⟨w1, L1, h1, R1, _, _⟩ := World.step_sim (dflt := dflt) R st hp.1
    obtain ⟨s1, M1, h2, rfl, I1, hM, _⟩ := step_ok I (builds_of R hp.1) h1
    obtain ⟨s2, L2, M2, h3, h4, I2, R2, hM2⟩ := ih s1 _ L1 M1 I1 R1 hp.2
    refine ⟨s2, L2, M2, ?_, ?_, I2, R2, ?_⟩
    · show Res.bind (step hash dflt s st) _ = _
      rw [h2]; exact h3
    · show Res.bind (World.step hash dflt s.w st) _ = _
      rw [h1]; exact h4
    · rw [hM2, hM, loses_eq I R hp.1]; simp only [dropped]; omega

end PWorld
end Eni
