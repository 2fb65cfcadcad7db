import Verif.Proofs.HashOps
import Verif.Model.HashTable
import Verif.Spec.FMap
import Mathlib.Data.List.Nodup
import Mathlib.Data.List.Forall2
/-!
# Simulation of finite maps by heap-allocated hash tables

Helper lemmas, no property statements.
-/
set_option linter.unusedSectionVars false
set_option linter.unusedVariables false

namespace Eni
open Spec

variable {K V : Type} [DecidableEq K]

/-- the heap cell of a binding -/
def bcell (kv : K × V) : Option (Cell K V) := some ⟨kv.1, kv.2⟩

/-- heap addresses not yet handed out are not live -/
def Heap.Fresh (h : Heap K V) : Prop := ∀ p, h.next ≤ p → h.cells p = none

/-- A table on a heap represents a finite map. -/
structure TRel (hash : K → UInt32) (h : Heap K V) (t : Table Nat) (m : FMap K V) : Prop where
  good : Table.Good hash h.keyOf t
  abs : (t.entries.map h.cells).Perm (m.map bcell)

theorem Table.Good.ne_eq {E : Type} {hash : K → UInt32} {keyOf : E → Option K} {t : Table E}
    (G : Table.Good hash keyOf t) : t.ne = t.entries.length := by
  rcases G with rfl | W
  · rfl
  · exact W.ne_eq

theorem Table.Good.nodup {E : Type} {hash : K → UInt32} {keyOf : E → Option K} {t : Table E}
    (G : Table.Good hash keyOf t) : (t.entries.map keyOf).Nodup := by
  rcases G with rfl | W
  · simp [Table.entries, Table.null]
  · exact W.lay.nodup

theorem Table.Good.congr {E : Type} {hash : K → UInt32} {keyOf keyOf' : E → Option K} {t : Table E}
    (G : Table.Good hash keyOf t) (h : ∀ e ∈ t.entries, keyOf' e = keyOf e) : Table.Good hash keyOf' t := by
  rcases G with rfl | W
  · exact Or.inl rfl
  · exact Or.inr (W.congr h)

namespace TRel
variable {hash : K → UInt32} {h : Heap K V} {t : Table Nat} {m : FMap K V}

theorem ne_eq (R : TRel hash h t m) : t.ne = m.length := by
  rw [R.good.ne_eq]
  have := R.abs.length_eq
  simpa using this

theorem functional (R : TRel hash h t m) : m.Functional := by
  have h1 := R.good.nodup
  have h2 : (t.entries.map h.keyOf) = (t.entries.map h.cells).map (Option.map Cell.key) := by
    rw [List.map_map]; rfl
  rw [h2] at h1
  have h3 := (R.abs.map (Option.map Cell.key)).nodup_iff.mp h1
  have h4 : (m.map bcell).map (Option.map Cell.key) = (m.map Prod.fst).map some := by
    rw [List.map_map, List.map_map]; rfl
  rw [h4] at h3
  exact List.Nodup.of_map _ h3

theorem nodup_addr (R : TRel hash h t m) : t.entries.Nodup := List.Nodup.of_map _ R.good.nodup

theorem of_key (R : TRel hash h t m) {p : Nat} {k : K} (hp : p ∈ t.entries) (hk : h.keyOf p = some k) :
    ∃ v, h.cells p = some ⟨k, v⟩ ∧ m.lookup k = some v := by
  unfold Heap.keyOf at hk
  obtain ⟨⟨k', v⟩, hc, hk'⟩ := Option.map_eq_some_iff.mp hk
  simp at hk'
  subst hk'
  refine ⟨v, hc, FMap.lookup_of_mem R.functional ?_⟩
  have : h.cells p ∈ m.map bcell := R.abs.mem_iff.mp (List.mem_map_of_mem hp)
  rw [hc] at this
  obtain ⟨⟨a, b⟩, h1, h2⟩ := List.mem_map.mp this
  simp [bcell] at h2
  rw [← h2.1, ← h2.2]; exact h1

theorem none_of (R : TRel hash h t m) {k : K} (hno : ∀ p ∈ t.entries, h.keyOf p ≠ some k) : m.lookup k = none := by
  rw [FMap.lookup_none_iff]
  intro v hm
  have : bcell (k, v) ∈ t.entries.map h.cells := R.abs.mem_iff.mpr (List.mem_map_of_mem hm)
  obtain ⟨p, hp, hc⟩ := List.mem_map.mp this
  exact hno p hp (by unfold Heap.keyOf; rw [hc]; rfl)

theorem live (R : TRel hash h t m) {p : Nat} (hp : p ∈ t.entries) : ∃ c, h.cells p = some c := by
  have : h.cells p ∈ m.map bcell := R.abs.mem_iff.mp (List.mem_map_of_mem hp)
  obtain ⟨kv, _, h2⟩ := List.mem_map.mp this
  exact ⟨_, h2.symm⟩

theorem lt_next (R : TRel hash h t m) (F : h.Fresh) {p : Nat} (hp : p ∈ t.entries) : p < h.next := by
  rcases Nat.lt_or_ge p h.next with hlt | hge
  · exact hlt
  · obtain ⟨c, hc⟩ := R.live hp
    rw [F p hge] at hc
    exact absurd hc (by simp)

/-- The representation only looks at the cells of the entries. -/
theorem congr (R : TRel hash h t m) {h' : Heap K V} (hc : ∀ p ∈ t.entries, h'.cells p = h.cells p) : TRel hash h' t m :=
  ⟨R.good.congr (fun e he => by unfold Heap.keyOf; rw [hc e he]), by rw [List.map_congr_left hc]; exact R.abs⟩

end TRel

/-- What a table operation may do to the rest of the heap. -/
structure HStep (h : Heap K V) (t : Table Nat) (h' : Heap K V) (t' : Table Nat) : Prop where
  next_le : h.next ≤ h'.next
  fresh : h'.Fresh
  frame : ∀ p < h.next, p ∉ t.entries → h'.cells p = h.cells p
  sub : ∀ p ∈ t'.entries, p ∈ t.entries ∨ h.next ≤ p
  exact : ∀ p, h'.cells p ≠ none → p ∈ t'.entries ∨ (p < h.next ∧ p ∉ t.entries)

theorem FMap.perm_erase {m : FMap K V} (hf : m.Functional) {k : K} {v : V} (hl : m.lookup k = some v) :
    m.Perm ((k, v) :: m.erase k) := by
  induction m with
  | nil => simp [FMap.lookup] at hl
  | cons a m ih =>
    obtain ⟨k1, v1⟩ := a
    simp only [FMap.Functional, List.map_cons, List.nodup_cons] at hf
    by_cases hk : k1 = k
    · subst hk
      simp [FMap.lookup] at hl
      subst hl
      have : FMap.erase ((k1, v1) :: m) k1 = m := by
        simp only [FMap.erase]
        rw [List.filter_cons_of_neg (by simp), List.filter_eq_self]
        rintro ⟨a, b⟩ hm
        simp
        rintro rfl
        exact hf.1 (List.mem_map.mpr ⟨_, hm, rfl⟩)
      rw [this]
    · have h1 : FMap.lookup m k = some v := by
        unfold FMap.lookup at hl ⊢
        rw [List.find?_cons_of_neg (by simpa using hk)] at hl
        exact hl
      have h2 : FMap.erase ((k1, v1) :: m) k = (k1, v1) :: FMap.erase m k := by
        simp only [FMap.erase]
        rw [List.filter_cons_of_pos (by simpa using hk)]
      rw [h2]
      exact (List.Perm.cons _ (ih hf.2 h1)).trans (List.Perm.swap _ _ _)

namespace HashTable
variable {hash : K → UInt32} {dflt : V} {h : Heap K V} {t : Table Nat} {m : FMap K V}

theorem alloc_cells (h : Heap K V) (F : h.Fresh) (k : K) (v : V) {p : Nat} (hp : p < h.next) :
    (h.alloc k v).1.cells p = h.cells p := by
  simp only [Heap.alloc]; rw [if_neg (by omega)]

theorem alloc_fresh (h : Heap K V) (F : h.Fresh) (k : K) (v : V) : (h.alloc k v).1.Fresh := by
  intro p hp
  simp only [Heap.alloc] at hp ⊢
  rw [if_neg (by omega)]
  exact F p (by omega)

theorem insert_sim (R : TRel hash h t m) (F : h.Fresh) (hm : m.length < 1073643498) (k : K) :
    (∃ p v, insert hash dflt h t k = .ok (h, t, p, true) ∧ p ∈ t.entries ∧ h.cells p = some ⟨k, v⟩ ∧
      m.lookup k = some v) ∨
    (m.lookup k = none ∧ ∃ t', insert hash dflt h t k = .ok ((h.alloc k dflt).1, t', h.next, false) ∧
      TRel hash (h.alloc k dflt).1 t' ((k, dflt) :: m) ∧ t'.init = true ∧ t'.entries.Perm (h.next :: t.entries)) := by
  have hne := R.ne_eq
  rcases Table.insertE_spec R.good (by omega) k with ⟨i, b, e, hins, hi, hs, hk, he⟩ | ⟨hno, hins⟩
  · left
    obtain ⟨v, hc, hl⟩ := R.of_key he hk
    refine ⟨e, v, ?_, he, hc, hl⟩
    obtain ⟨bh, bs⟩ := b
    simp only at hs
    subst hs
    simp only [insert, hins, Res.ok_bind, if_true, hi]
  · right
    refine ⟨R.none_of hno, ?_⟩
    have hcong : ∀ e ∈ t.entries, (h.alloc k dflt).1.keyOf e = h.keyOf e := by
      intro e he
      unfold Heap.keyOf
      rw [alloc_cells h F k dflt (R.lt_next F he)]
    obtain ⟨i, t', t0, u, h1, h2, h3, _⟩ := hins (h.alloc k dflt).1.keyOf h.next hcong
      (by simp [Heap.keyOf, Heap.alloc])
    refine ⟨t', ?_, ⟨Or.inr h2, ?_⟩, h2.init, h3⟩
    · simp only [insert, Heap.alloc] at h1 ⊢
      simp only [h1, Res.ok_bind]
      rfl
    · refine (h3.map _).trans ?_
      simp only [List.map_cons]
      have e1 : (h.alloc k dflt).1.cells h.next = bcell (k, dflt) := by simp [Heap.alloc, bcell]
      rw [e1]
      refine List.Perm.cons _ ?_
      rw [List.map_congr_left (fun e he => alloc_cells h F k dflt (R.lt_next F he))]
      exact R.abs

theorem alloc_hstep (F : h.Fresh) (R : TRel hash h t m) {k : K} {v : V} {t' : Table Nat}
    (hp : t'.entries.Perm (h.next :: t.entries)) : HStep h t (h.alloc k v).1 t' := by
  refine ⟨by simp [Heap.alloc], alloc_fresh h F k v, fun p hp _ => alloc_cells h F k v hp, ?_, ?_⟩
  · intro p hpm
    rcases List.mem_cons.mp (hp.mem_iff.mp hpm) with rfl | h1
    · right; omega
    · left; exact h1
  · intro p hlive
    by_cases hpe : p ∈ t.entries
    · left; exact hp.mem_iff.mpr (List.mem_cons_of_mem _ hpe)
    · by_cases hpn : p = h.next
      · left; rw [hpn]; exact hp.mem_iff.mpr List.mem_cons_self
      · right
        refine ⟨?_, hpe⟩
        rcases Nat.lt_or_ge p h.next with h1 | h1
        · exact h1
        · exfalso; apply hlive
          simp only [Heap.alloc]; rw [if_neg hpn]; exact F p h1

theorem _root_.Eni.HStep.refl (F : h.Fresh) {t' : Table Nat} (he : t'.entries.Perm t.entries) : HStep h t h t' :=
  ⟨Nat.le_refl _, F, fun _ _ _ => rfl, fun p hp => Or.inl (he.mem_iff.mp hp), fun p hl => by
    by_cases hp : p ∈ t.entries
    · exact Or.inl (he.mem_iff.mpr hp)
    · refine Or.inr ⟨?_, hp⟩
      rcases Nat.lt_or_ge p h.next with h1 | h1
      · exact h1
      · exact absurd (F p h1) hl⟩

/-- assignment through an entry pointer -/
theorem setVal_sim (R : TRel hash h t m) (F : h.Fresh) {p : Nat} {k : K} {v0 v : V} (hp : p ∈ t.entries)
    (hc : h.cells p = some ⟨k, v0⟩) :
    ∃ h', h.setVal p v = .ok h' ∧ TRel hash h' t (m.set k v) ∧ HStep h t h' t ∧
      h'.cells p = some ⟨k, v⟩ ∧ (∀ q, q ≠ p → h'.cells q = h.cells q) ∧ h'.next = h.next := by
  have hk : h.keyOf p = some k := by simp [Heap.keyOf, hc]
  obtain ⟨v1, hc1, hl⟩ := R.of_key hp hk
  have hv1 : v1 = v0 := by rw [hc] at hc1; simpa using hc1.symm
  subst hv1
  have hpn := R.lt_next F hp
  refine ⟨⟨h.next, fun a => if a = p then some ⟨k, v⟩ else h.cells a⟩, ?_, ⟨?_, ?_⟩, ⟨?_, ?_, ?_, ?_, ?_⟩, ?_, ?_, rfl⟩
  · simp [Heap.setVal, hc]
  · refine R.good.congr ?_
    intro e he
    unfold Heap.keyOf
    simp only
    split
    · rename_i h1; subst h1; simp [hc]
    · rfl
  · have he : t.entries.Perm (p :: t.entries.erase p) := List.perm_cons_erase hp
    have hnd := he.nodup_iff.mp R.nodup_addr
    rw [List.nodup_cons] at hnd
    have h1 := (he.map h.cells).symm.trans (R.abs.trans ((FMap.perm_erase R.functional hl).map bcell))
    simp only [List.map_cons, hc, bcell] at h1
    have h2 := (List.perm_cons _).mp h1
    refine (he.map _).trans ?_
    simp only [List.map_cons, if_true, FMap.set, bcell]
    refine List.Perm.cons _ ?_
    rw [List.map_congr_left (g := h.cells)]
    · exact h2
    · intro a ha
      rw [if_neg]
      rintro rfl
      exact hnd.1 ha
  · exact Nat.le_refl _
  · intro q hq
    simp only at hq ⊢
    rw [if_neg (by omega)]
    exact F q hq
  · intro q _ hq
    simp only
    rw [if_neg]
    rintro rfl
    exact hq hp
  · intro q hq; exact Or.inl hq
  · intro q hq
    by_cases hqe : q ∈ t.entries
    · exact Or.inl hqe
    · refine Or.inr ⟨?_, hqe⟩
      rcases Nat.lt_or_ge q h.next with h1 | h1
      · exact h1
      · exfalso; apply hq; simp only; rw [if_neg (by omega)]; exact F q h1
  · simp
  · intro q hq; simp only; rw [if_neg hq]

theorem _root_.Eni.HStep.trans {h1 h2 h3 : Heap K V} {t1 t2 t3 : Table Nat} (a : HStep h1 t1 h2 t2) (b : HStep h2 t2 h3 t3) :
    HStep h1 t1 h3 t3 := by
  refine ⟨Nat.le_trans a.next_le b.next_le, b.fresh, ?_, ?_, ?_⟩
  · intro p hp hpt
    rw [b.frame p (Nat.lt_of_lt_of_le hp a.next_le) ?_, a.frame p hp hpt]
    intro hp2
    rcases a.sub p hp2 with h | h
    · exact hpt h
    · omega
  · intro p hp
    rcases b.sub p hp with h | h
    · exact a.sub p h
    · right; exact Nat.le_trans a.next_le h
  · intro p hp
    rcases b.exact p hp with h | ⟨h, h'⟩
    · exact Or.inl h
    · have h2 : h2.cells p ≠ none := by rw [← b.frame p h h']; exact hp
      rcases a.exact p h2 with h4 | h4
      · exact absurd h4 h'
      · exact Or.inr h4

theorem assign_sim (R : TRel hash h t m) (F : h.Fresh) (hm : m.length < 1073643498) (k : K) (v : V) :
    ∃ h' t' p, assign hash dflt h t k v = .ok (h', t', p, (m.lookup k).isSome) ∧ TRel hash h' t' (m.set k v) ∧
      t'.init = true ∧ HStep h t h' t' ∧ p ∈ t'.entries ∧ h'.cells p = some ⟨k, v⟩ ∧
      (∀ q ∈ t.entries, q ∈ t'.entries ∧ h'.keyOf q = h.keyOf q) := by
  rcases insert_sim (dflt := dflt) R F hm k with ⟨p, v0, hins, hp, hc, hl⟩ | ⟨hl, t', hins, R', hi, hperm⟩
  · obtain ⟨h', h1, h2, h3, h4, h5, _⟩ := setVal_sim (v := v) R F hp hc
    refine ⟨h', t, p, ?_, h2, ?_, h3, hp, h4, ?_⟩
    rotate_left 2
    · intro q hq
      refine ⟨hq, ?_⟩
      unfold Heap.keyOf
      by_cases hqp : q = p
      · subst hqp; rw [h4, hc]; rfl
      · rw [h5 q hqp]
    · simp [assign, hins, h1, hl]
    · rcases R.good with rfl | W
      · simp [Table.entries, Table.null] at hp
      · exact W.init
  · have F' := alloc_fresh h F k dflt
    have hp' : h.next ∈ t'.entries := hperm.mem_iff.mpr List.mem_cons_self
    obtain ⟨h', h1, h2, h3, h4, h5, _⟩ := setVal_sim (v := v) R' F' hp' (k := k) (v0 := dflt) (by simp [Heap.alloc])
    refine ⟨h', t', h.next, ?_, ?_, hi, (alloc_hstep F R hperm).trans h3, hp', h4, ?_⟩
    rotate_left 2
    · intro q hq
      refine ⟨hperm.mem_iff.mpr (List.mem_cons_of_mem _ hq), ?_⟩
      have hlt := R.lt_next F hq
      unfold Heap.keyOf
      rw [h5 q (by omega), alloc_cells h F _ _ hlt]
    · simp [assign, hins, h1, hl]
    · have e1 : FMap.set ((k, dflt) :: m) k v = FMap.set m k v := by
        simp only [FMap.set, FMap.erase]
        rw [List.filter_cons_of_neg (by simp)]
      rw [← e1]; exact h2

theorem find_sim (R : TRel hash h t m) (k : K) :
    (find hash h t k = .ok none ∧ m.lookup k = none) ∨
    (∃ p v, find hash h t k = .ok (some p) ∧ p ∈ t.entries ∧ h.cells p = some ⟨k, v⟩ ∧ m.lookup k = some v) := by
  rcases Table.findE_spec R.good k with ⟨h1, hno⟩ | ⟨e, h1, he, hk⟩
  · left; exact ⟨h1, R.none_of hno⟩
  · right
    obtain ⟨v, hc, hl⟩ := R.of_key he hk
    exact ⟨e, v, h1, he, hc, hl⟩

theorem lookup_sim (R : TRel hash h t m) (k : K) : lookup hash h t k = .ok (m.lookup k) := by
  rcases find_sim R k with ⟨h1, h2⟩ | ⟨p, v, h1, _, hc, hl⟩
  · simp [lookup, h1, h2]
  · simp [lookup, h1, hl, Heap.getVal, hc]

theorem erase_sim (R : TRel hash h t m) (F : h.Fresh) (hm : m.length ≤ 1073643498) (k : K) :
    ∃ h' t', erase hash h t k = .ok (h', t', (m.lookup k).isSome) ∧ TRel hash h' t' (m.erase k) ∧
      t'.init = t.init ∧ HStep h t h' t' ∧
      (∀ q ∈ t.entries, h.keyOf q ≠ some k → q ∈ t'.entries ∧ h'.cells q = h.cells q) := by
  have hne := R.ne_eq
  rcases Table.eraseE_spec R.good (by omega) k with ⟨h1, hno⟩ | ⟨p, t', u, h1, hk, hp, W, _⟩
  · have hl := R.none_of hno
    refine ⟨h, t, ?_, ?_, rfl, HStep.refl F (List.Perm.refl _), fun q hq _ => ⟨hq, rfl⟩⟩
    · simp [erase, h1, hl]
    · have : m.erase k = m := by
        unfold FMap.erase
        rw [List.filter_eq_self]
        rintro ⟨a, b⟩ hm
        simp
        rintro rfl
        exact FMap.lookup_none_iff.mp hl b hm
      rw [this]; exact R
  · have hpe : p ∈ t.entries := hp.mem_iff.mp List.mem_cons_self
    obtain ⟨v, hc, hl⟩ := R.of_key hpe hk
    have hnd := hp.nodup_iff.mpr R.nodup_addr
    rw [List.nodup_cons] at hnd
    have hcells : ∀ e ∈ t'.entries, (if e = p then none else h.cells e) = h.cells e := by
      intro e he
      rw [if_neg]
      rintro rfl
      exact hnd.1 he
    refine ⟨⟨h.next, fun a => if a = p then none else h.cells a⟩, t', ?_, ⟨Or.inr (W.congr ?_), ?_⟩, ?_, ⟨?_, ?_, ?_, ?_, ?_⟩, ?_⟩
    rotate_right 1
    · intro q hq hqk
      have hqp : q ≠ p := by rintro rfl; exact hqk hk
      refine ⟨?_, by simp only; rw [if_neg hqp]⟩
      rcases List.mem_cons.mp (hp.mem_iff.mpr hq) with h5 | h5
      · exact absurd h5 hqp
      · exact h5
    · simp [erase, h1, hl, Heap.free, hc]
    · intro e he
      unfold Heap.keyOf
      simp only
      rw [hcells e he]
    · simp only
      rw [List.map_congr_left hcells]
      have h2 := (hp.map h.cells).trans (R.abs.trans ((FMap.perm_erase R.functional hl).map bcell))
      simp only [List.map_cons, hc, bcell] at h2
      exact (List.perm_cons _).mp h2
    · rw [W.init]
      rcases R.good with rfl | W0
      · simp [Table.entries, Table.null] at hpe
      · exact W0.init.symm
    · exact Nat.le_refl _
    · intro q hq
      simp only at hq ⊢
      split
      · rfl
      · exact F q hq
    · intro q _ hq
      simp only
      rw [if_neg]
      rintro rfl
      exact hq hpe
    · intro q hq; exact Or.inl (hp.mem_iff.mp (List.mem_cons_of_mem _ hq))
    · intro q hq
      simp only at hq
      by_cases hqp : q = p
      · simp [hqp] at hq
      · rw [if_neg hqp] at hq
        by_cases hqe : q ∈ t.entries
        · rcases List.mem_cons.mp (hp.mem_iff.mpr hqe) with h5 | h5
          · exact absurd h5 hqp
          · exact Or.inl h5
        · refine Or.inr ⟨?_, hqe⟩
          rcases Nat.lt_or_ge q h.next with h5 | h5
          · exact h5
          · exact absurd (F q h5) hq

theorem freeAll_spec : ∀ (ps : List Nat) (h : Heap K V), ps.Nodup → (∀ p ∈ ps, ∃ c, h.cells p = some c) →
    ∃ h', h.freeAll ps = .ok h' ∧ h'.next = h.next ∧ ∀ q, h'.cells q = if q ∈ ps then none else h.cells q := by
  intro ps
  induction ps with
  | nil => intro h _ _; exact ⟨h, rfl, rfl, fun q => by simp⟩
  | cons p ps ih =>
    intro h hnd hl
    obtain ⟨c, hc⟩ := hl p List.mem_cons_self
    rw [List.nodup_cons] at hnd
    obtain ⟨h', h1, h2, h3⟩ := ih ⟨h.next, fun a => if a = p then none else h.cells a⟩ hnd.2 (by
      intro q hq
      obtain ⟨c, hc⟩ := hl q (List.mem_cons_of_mem _ hq)
      refine ⟨c, ?_⟩
      simp only
      rw [if_neg, hc]
      rintro rfl
      exact hnd.1 hq)
    refine ⟨h', ?_, h2, ?_⟩
    · simp [Heap.freeAll, Heap.free, hc, h1]
    · intro q
      rw [h3 q]
      by_cases hq : q = p
      · subst hq; simp
      · simp [hq]

theorem clear_sim (R : TRel hash h t m) (F : h.Fresh) :
    ∃ h' t', clear h t = .ok (h', t') ∧ TRel hash h' t' [] ∧ t'.init = (t.init && m.isEmpty) ∧ HStep h t h' t' := by
  have hne := R.ne_eq
  by_cases h0 : t.ne = 0
  · have : m = [] := by rw [← List.length_eq_zero_iff]; omega
    subst this
    refine ⟨h, t, by simp [clear, h0], R, by simp, HStep.refl F (List.Perm.refl _)⟩
  · obtain ⟨h', h1, h2, h3⟩ := freeAll_spec t.entries h R.nodup_addr (fun p hp => R.live hp)
    refine ⟨h', Table.null, by simp [clear, h0, h1], ⟨Or.inl rfl, by simp [Table.entries, Table.null]⟩, ?_, ⟨by omega, ?_, ?_, ?_, ?_⟩⟩
    · have : m.isEmpty = false := by
        cases m with
        | nil => simp at hne; omega
        | cons a b => rfl
      simp [this, Table.null]
    · intro q hq
      rw [h3 q]
      split
      · rfl
      · exact F q (by omega)
    · intro q _ hqe
      rw [h3 q, if_neg hqe]
    · intro q hq; simp [Table.entries, Table.null] at hq
    · intro q hq
      rw [h3 q] at hq
      by_cases hqe : q ∈ t.entries
      · simp [hqe] at hq
      · rw [if_neg hqe] at hq
        refine Or.inr ⟨?_, hqe⟩
        rcases Nat.lt_or_ge q h.next with h5 | h5
        · exact h5
        · exact absurd (F q h5) hq

theorem rehash_sim (R : TRel hash h t m) (F : h.Fresh) (hm : m.length ≤ 1073643498) :
    ∃ t', rehash t = .ok t' ∧ TRel hash h t' m ∧ t'.init = t.init ∧ t'.entries.Perm t.entries := by
  have hne := R.ne_eq
  rcases R.good with rfl | W
  · refine ⟨Table.null, ?_, R, rfl, List.Perm.refl _⟩
    simp [rehash, Table.mayRehash, Table.null, w32, sub32]
  · obtain ⟨t', h1, h2, h3, _⟩ := Table.mayRehash_spec W.to1 (by omega)
    exact ⟨t', h1, ⟨Or.inr h2, (h3.map _).trans R.abs⟩, by rw [h2.init, W.init], h3⟩

theorem rehashN_sim (R : TRel hash h t m) (F : h.Fresh) {n : Nat} (hm : m.length < n) (hn : n ≤ 1431655765) :
    ∃ t', rehashN t n = .ok t' ∧ TRel hash h t' m ∧ t'.init = true ∧ t'.entries.Perm t.entries ∧ t'.nb = n := by
  have hne := R.ne_eq
  have key : ∃ t', Table.doRehash t n = .ok t' ∧ t'.init = true ∧ t'.nb = n ∧ t'.buckets.length = n ∧ Table.Layout hash h.keyOf t'.buckets ∧
      t'.entries.Perm t.entries ∧ t'.ne = t.ne ∧ t'.ne = t'.entries.length ∧ t'.nt = 0 ∧ t'.tombs = 0 := by
    rcases R.good with rfl | W
    · refine Table.doRehash_spec rfl ⟨?_, ?_, ?_⟩ rfl (by simp [Table.null])
      · intro b hb; simp [Table.null] at hb
      · intro i b e hi; simp [Table.null] at hi
      · simp [Table.null, Table.ents]
    · exact Table.doRehash_spec W.len W.lay W.ne_eq (by omega)
  obtain ⟨t', h1, h2, h3, h4, h5, h6, h7, h8, h9, h10⟩ := key
  refine ⟨t', ?_, ⟨Or.inr ⟨h2, by omega, h5, h8, by omega, by omega, by omega⟩, (h6.map _).trans R.abs⟩, h2, h6, h3⟩
  unfold rehashN
  rw [w32_of_lt (by omega)]
  exact h1

/-! ### copying -/

/-- same shape, entries at corresponding places holding equal cells -/
def CopyOf (h h' : Heap K V) (b b' : Bucket Nat) : Prop :=
  b'.hash = b.hash ∧
    ((b.slot = .empty ∧ b'.slot = .empty) ∨ (b.slot = .tomb ∧ b'.slot = .tomb) ∨
     ∃ p q, b.slot = .full p ∧ b'.slot = .full q ∧ h'.cells q = h.cells p)

theorem copyBuckets_spec : ∀ (bs : List (Bucket Nat)) (h : Heap K V), h.Fresh →
    (∀ p ∈ Table.ents bs, ∃ c, h.cells p = some c) →
    ∃ h' bs', copyBuckets h bs = .ok (h', bs') ∧ List.Forall₂ (CopyOf h h') bs bs' ∧ h.next ≤ h'.next ∧ h'.Fresh ∧
      (∀ p < h.next, h'.cells p = h.cells p) ∧ (∀ q ∈ Table.ents bs', h.next ≤ q ∧ q < h'.next) ∧ (Table.ents bs').Nodup ∧
      (∀ q, h.next ≤ q → h'.cells q ≠ none → q ∈ Table.ents bs') := by
  intro bs
  induction bs with
  | nil =>
    intro h F _
    exact ⟨h, [], rfl, List.Forall₂.nil, Nat.le_refl _, F, fun _ _ => rfl, by simp, by simp, fun q hq hl => absurd (F q hq) hl⟩
  | cons b bs ih =>
    intro h F hl
    rcases hb : b with ⟨bh, bsl⟩
    cases bsl with
    | empty =>
      obtain ⟨h', bs', h1, h2, h3, h4, h5, h6, h7, h8⟩ := ih h F (by
        intro p hp; apply hl; rw [hb]; exact hp)
      refine ⟨h', ⟨bh, .empty⟩ :: bs', by simp [copyBuckets, h1], List.Forall₂.cons ⟨rfl, Or.inl ⟨rfl, rfl⟩⟩ h2, h3, h4, h5, ?_, ?_, ?_⟩
      · exact h6
      · exact h7
      · exact h8
    | tomb =>
      obtain ⟨h', bs', h1, h2, h3, h4, h5, h6, h7, h8⟩ := ih h F (by
        intro p hp; apply hl; rw [hb]; exact hp)
      refine ⟨h', ⟨bh, .tomb⟩ :: bs', by simp [copyBuckets, h1], List.Forall₂.cons ⟨rfl, Or.inr (Or.inl ⟨rfl, rfl⟩)⟩ h2, h3, h4, h5, ?_, ?_, ?_⟩
      · exact h6
      · exact h7
      · exact h8
    | full p =>
      obtain ⟨c, hc⟩ := hl p (by simp [Table.ents, hb, Table.slotEntry])
      have hlt : ∀ q c, h.cells q = some c → q < h.next := by
        intro q c hq
        rcases Nat.lt_or_ge q h.next with h1 | h1
        · exact h1
        · rw [F q h1] at hq; exact absurd hq (by simp)
      have hsub : ∀ q ∈ Table.ents bs, ∃ c, h.cells q = some c := by
        intro q hq; apply hl
        simp only [Table.ents, hb, List.filterMap_cons, Table.slotEntry]
        exact List.mem_cons_of_mem _ hq
      obtain ⟨h', bs', h1, h2, h3, h4, h5, h6, h7, h8⟩ := ih (h.alloc c.key c.val).1 (alloc_fresh h F _ _) (by
        intro q hq
        obtain ⟨c', hc'⟩ := hsub q hq
        exact ⟨c', by rw [alloc_cells h F _ _ (hlt q c' hc'), hc']⟩)
      have hnext : (h.alloc c.key c.val).1.next = h.next + 1 := rfl
      have hnew : h'.cells h.next = some c := by
        rw [h5 h.next (by omega)]; simp [Heap.alloc]
      refine ⟨h', ⟨bh, .full h.next⟩ :: bs', ?_, List.Forall₂.cons ⟨rfl, Or.inr (Or.inr ⟨p, h.next, rfl, rfl, by rw [hnew, hc]⟩)⟩ ?_, by omega, h4, ?_, ?_, ?_, ?_⟩
      · simp only [copyBuckets, hc]
        simp only [Heap.alloc] at h1 ⊢
        simp [h1]
      · -- the tail was copied from the extended heap; its sources are old
        have : ∀ (l l' : List (Bucket Nat)), List.Forall₂ (CopyOf (h.alloc c.key c.val).1 h') l l' →
            (∀ q ∈ Table.ents l, ∃ c, h.cells q = some c) → List.Forall₂ (CopyOf h h') l l' := by
          intro l l' hf
          induction hf with
          | nil => intro _; exact List.Forall₂.nil
          | @cons b1 b2 l l' hc hf ih =>
            intro hlv
            refine List.Forall₂.cons ⟨hc.1, ?_⟩ (ih ?_)
            · rcases hc.2 with h | h | ⟨p1, q1, hp1, hq1, hcc⟩
              · exact Or.inl h
              · exact Or.inr (Or.inl h)
              · refine Or.inr (Or.inr ⟨p1, q1, hp1, hq1, ?_⟩)
                obtain ⟨c1, hc1⟩ := hlv p1 (by
                  have : Table.slotEntry b1 = some p1 := Table.slotEntry_some.mpr hp1
                  simp [Table.ents, this])
                rw [hcc, alloc_cells h F _ _ (hlt p1 c1 hc1)]
            · intro q hq
              apply hlv
              simp only [Table.ents, List.filterMap_cons]
              split
              · exact hq
              · exact List.mem_cons_of_mem _ hq
        exact this _ _ h2 hsub
      · intro q hq
        rw [h5 q (by omega), alloc_cells h F _ _ hq]
      · intro q hq
        simp only [Table.ents, List.filterMap_cons, Table.slotEntry, List.mem_cons] at hq
        rcases hq with rfl | hq
        · omega
        · have := h6 q hq; omega
      · simp only [Table.ents, List.filterMap_cons, Table.slotEntry, List.nodup_cons]
        refine ⟨?_, h7⟩
        intro hq
        have := h6 _ hq
        omega
      · intro q hq hl'
        simp only [Table.ents, List.filterMap_cons, Table.slotEntry, List.mem_cons]
        by_cases hqn : q = h.next
        · exact Or.inl hqn
        · exact Or.inr (h8 q (by omega) hl')

theorem CopyOf.entries {h h' : Heap K V} {bs bs' : List (Bucket Nat)} (hf : List.Forall₂ (CopyOf h h') bs bs') :
    (Table.ents bs').map h'.cells = (Table.ents bs).map h.cells ∧ Table.tmb bs' = Table.tmb bs ∧ bs'.length = bs.length := by
  induction hf with
  | nil => simp
  | @cons b b' l l' hc _ ih =>
    obtain ⟨bh, bs⟩ := b
    obtain ⟨bh', bs'⟩ := b'
    obtain ⟨i1, i2, i3⟩ := ih
    rcases hc.2 with ⟨h1, h2⟩ | ⟨h1, h2⟩ | ⟨p, q, h1, h2, h3⟩ <;> simp only at h1 h2 <;> subst h1 <;> subst h2
    · exact ⟨i1, by rw [Table.tmb_empty, Table.tmb_empty, i2], by simp [i3]⟩
    · exact ⟨i1, by rw [Table.tmb_tomb, Table.tmb_tomb, i2], by simp [i3]⟩
    · refine ⟨?_, by rw [Table.tmb_full, Table.tmb_full, i2], by simp [i3]⟩
      simp only [Table.ents, List.filterMap_cons, Table.slotEntry, List.map_cons, h3]
      rw [show List.map h'.cells (List.filterMap Table.slotEntry l') = List.map h.cells (List.filterMap Table.slotEntry l) from i1]

theorem CopyOf.get {h h' : Heap K V} {bs bs' : List (Bucket Nat)} (hf : List.Forall₂ (CopyOf h h') bs bs') (i : Nat) :
    (bs[i]? = none ∧ bs'[i]? = none) ∨ ∃ b b', bs[i]? = some b ∧ bs'[i]? = some b' ∧ CopyOf h h' b b' := by
  induction hf generalizing i with
  | nil => left; simp
  | @cons b b' l l' hc _ ih =>
    cases i with
    | zero => right; exact ⟨b, b', rfl, rfl, hc⟩
    | succ i => simpa using ih i

theorem CopyOf.layout {h h' : Heap K V} {bs bs' : List (Bucket Nat)} (hf : List.Forall₂ (CopyOf h h') bs bs')
    (L : Table.Layout hash h.keyOf bs) : Table.Layout hash h'.keyOf bs' := by
  obtain ⟨he, ht, hl⟩ := CopyOf.entries hf
  refine ⟨?_, ?_, ?_⟩
  · intro b' hb' e hs
    obtain ⟨i, hi⟩ := List.mem_iff_getElem?.mp hb'
    rcases CopyOf.get hf i with ⟨_, h2⟩ | ⟨b, b2, h1, h2, hc⟩
    · rw [h2] at hi; exact absurd hi (by simp)
    · rw [h2] at hi
      have := Option.some.inj hi
      subst this
      rcases hc.2 with ⟨_, h4⟩ | ⟨_, h4⟩ | ⟨p, q, h3, h4, h5⟩
      · rw [h4] at hs; exact absurd hs (by simp)
      · rw [h4] at hs; exact absurd hs (by simp)
      · rw [h4] at hs
        simp at hs
        subst hs
        obtain ⟨k, hk, hh⟩ := L.hashOk b (List.mem_of_getElem? h1) p h3
        refine ⟨k, ?_, by rw [hc.1, hh]⟩
        unfold Heap.keyOf at hk ⊢
        rw [h5]; exact hk
  · intro i b' e hi hs
    rcases CopyOf.get hf i with ⟨_, h2⟩ | ⟨b, b2, h1, h2, hc⟩
    · rw [h2] at hi; exact absurd hi (by simp)
    · rw [h2] at hi
      have := Option.some.inj hi
      subst this
      rcases hc.2 with ⟨_, h4⟩ | ⟨_, h4⟩ | ⟨p, q, h3, h4, h5⟩
      · rw [h4] at hs; exact absurd hs (by simp)
      · rw [h4] at hs; exact absurd hs (by simp)
      · have r := L.reach i b p h1 h3
        rw [hc.1, hl]
        refine Table.Reach.mono hl ?_ r
        intro j bj hj hne
        rcases CopyOf.get hf j with ⟨h6, _⟩ | ⟨c, c', h6, h7, hcc⟩
        · rw [h6] at hj; exact absurd hj (by simp)
        · rw [h6] at hj
          have := Option.some.inj hj
          subst this
          refine ⟨c', h7, ?_⟩
          rcases hcc.2 with ⟨h8, _⟩ | ⟨_, h8⟩ | ⟨_, _, _, h8, _⟩
          · exact absurd h8 hne
          · simp [h8]
          · simp [h8]
  · have : (Table.ents bs').map h'.keyOf = (Table.ents bs).map h.keyOf := by
      have h2 : ∀ (g : Heap K V) (l : List Nat), l.map g.keyOf = (l.map g.cells).map (Option.map Cell.key) := by
        intro g l; rw [List.map_map]; rfl
      rw [h2, h2, he]
    rw [this]; exact L.nodup

/-- copying a table that owns buckets -/
theorem copyBuckets_sim (R : TRel hash h t m) (F : h.Fresh) (hi : t.init = true) :
    ∃ h' bs', copyBuckets h t.buckets = .ok (h', bs') ∧
      TRel hash h' { t with init := true, buckets := bs' } m ∧ TRel hash h' t m ∧ h.next ≤ h'.next ∧ h'.Fresh ∧
      (∀ p < h.next, h'.cells p = h.cells p) ∧
      (∀ q ∈ Table.ents bs', h.next ≤ q ∧ q < h'.next) ∧
      (∀ q, h.next ≤ q → h'.cells q ≠ none → q ∈ Table.ents bs') := by
  have W : Table.WF hash h.keyOf t := by
    rcases R.good with rfl | W
    · simp [Table.null] at hi
    · exact W
  obtain ⟨h', bs', h1, h2, h3, h4, h5, h6, h7, h8⟩ := copyBuckets_spec t.buckets h F (fun p hp => R.live hp)
  obtain ⟨he, ht, hl⟩ := CopyOf.entries h2
  refine ⟨h', bs', h1, ⟨Or.inr ⟨rfl, ?_, CopyOf.layout h2 W.lay, ?_, ?_, W.room, W.small⟩, ?_⟩, ?_, h3, h4, h5, h6, h8⟩
  · simp only; rw [hl, W.len]
  · simp only [Table.entries_eq]
    have := congrArg List.length he
    simp only [List.length_map] at this
    rw [this]; exact W.ne_eq
  · simp only [Table.tombs_eq]; rw [ht]; exact W.nt_eq
  · simp only [Table.entries_eq]; rw [he]; exact R.abs
  · exact R.congr (fun p hp => h5 p (R.lt_next F hp))

theorem copy_sim (R : TRel hash h t m) (F : h.Fresh) (hi : t.init = true) :
    ∃ h' t', copy h t = .ok (h', t') ∧ TRel hash h' t' m ∧ TRel hash h' t m ∧ t'.init = true ∧ h.next ≤ h'.next ∧ h'.Fresh ∧
      (∀ p < h.next, h'.cells p = h.cells p) ∧
      (∀ q ∈ t'.entries, h.next ≤ q ∧ q < h'.next) ∧
      (∀ q, h.next ≤ q → h'.cells q ≠ none → q ∈ t'.entries) := by
  by_cases h0 : t.ne = 0
  · have hent : t.entries = [] := by
      have := R.good.ne_eq
      rw [← List.length_eq_zero_iff]; omega
    refine ⟨h, t, ?_, R, R, hi, Nat.le_refl _, F, fun _ _ => rfl, ?_, fun q hq hl => absurd (F q hq) hl⟩
    · obtain ⟨a, b, c, d, e⟩ := t
      simp only at hi h0
      subst hi; subst h0
      rfl
    · rw [hent]; simp
  · obtain ⟨h', bs', h1, h2, h3, h4, h5, h6, h7, h8⟩ := copyBuckets_sim R F hi
    exact ⟨h', { t with init := true, buckets := bs' }, by simp [copy, h0, h1], h2, h3, rfl, h4, h5, h6, h7, h8⟩

theorem copyAssign_sim (R : TRel hash h t m) (F : h.Fresh) (hi : t.init = true) (dst : Table Nat) :
    ∃ h' t', copyAssign h dst t = .ok (h', t') ∧ TRel hash h' t' m ∧ TRel hash h' t m ∧ t'.init = true ∧ h.next ≤ h'.next ∧ h'.Fresh ∧
      (∀ p < h.next, h'.cells p = h.cells p) ∧
      (∀ q ∈ t'.entries, h.next ≤ q ∧ q < h'.next) ∧
      (∀ q, h.next ≤ q → h'.cells q ≠ none → q ∈ t'.entries) := by
  obtain ⟨h', bs', h1, h2, h3, h4, h5, h6, h7, h8⟩ := copyBuckets_sim R F hi
  exact ⟨h', { t with init := true, buckets := bs' }, by simp [copyAssign, h1], h2, h3, rfl, h4, h5, h6, h7, h8⟩

end HashTable
end Eni
