import Verif.Proofs.HashHistory
import Verif.Spec.WorldSpec
/-!
# Simulation for programs with several tables

Helper lemmas, no property statements.
-/
set_option linter.unusedSectionVars false
set_option linter.unusedVariables false

namespace Eni
open Spec HashTable
variable {K V : Type} [DecidableEq K]
namespace World
variable {hash : K → UInt32} {dflt : V}

/-- table variable vs map variable -/
structure VRel (hash : K → UInt32) (h : Heap K V) (t : Table Nat) (x : MVar K V) : Prop where
  rel : TRel hash h t x.map
  arr : t.init = x.arr
  small : x.map.length ≤ 1073643498

/-- `L`: the live entries that no table owns -/
structure WRel (hash : K → UInt32) (w : World K V) (a : MWorld K V) (L : List Nat) : Prop where
  fresh : w.heap.Fresh
  vars : ∀ i, (w.tabs i = none ∧ a i = none) ∨ ∃ t x, w.tabs i = some t ∧ a i = some x ∧ VRel hash w.heap t x
  disj : ∀ i j t u, i ≠ j → w.tabs i = some t → w.tabs j = some u → ∀ p ∈ t.entries, p ∉ u.entries
  own : ∀ p, w.heap.cells p ≠ none → (∃ i t, w.tabs i = some t ∧ p ∈ t.entries) ∨ p ∈ L
  lostLive : ∀ p ∈ L, w.heap.cells p ≠ none
  lostFree : ∀ p ∈ L, ∀ i t, w.tabs i = some t → p ∉ t.entries
  lostNodup : L.Nodup

/-- the entries of a variable -/
def old (w : World K V) (i : Nat) : List Nat :=
  match w.tabs i with
  | some t => t.entries
  | none => []

theorem old_some {w : World K V} {i : Nat} {t : Table Nat} (h : w.tabs i = some t) : w.old i = t.entries := by simp [old, h]
theorem old_none {w : World K V} {i : Nat} (h : w.tabs i = none) : w.old i = [] := by simp [old, h]

theorem WRel.get {w : World K V} {a : MWorld K V} {L : List Nat} (R : WRel hash w a L) {i : Nat} {x : MVar K V} (h : a i = some x) :
    ∃ t, w.tabs i = some t ∧ VRel hash w.heap t x := by
  rcases R.vars i with ⟨_, h2⟩ | ⟨t, y, h1, h2, h3⟩
  · rw [h] at h2; cases h2
  · rw [h] at h2; cases h2; exact ⟨t, h1, h3⟩

theorem WRel.get_none {w : World K V} {a : MWorld K V} {L : List Nat} (R : WRel hash w a L) {i : Nat} (h : a i = none) : w.tabs i = none := by
  rcases R.vars i with ⟨h1, _⟩ | ⟨t, y, h1, h2, h3⟩
  · exact h1
  · rw [h] at h2; cases h2

theorem start_rel : WRel hash (start : World K V) (fun _ => none) [] :=
  ⟨fun _ _ => rfl, fun i => Or.inl ⟨rfl, rfl⟩, fun i j t u _ h => by simp [start] at h, fun p h => absurd rfl h, by simp, by simp, by simp⟩

theorem WRel.lost_lt {w : World K V} {a : MWorld K V} {L : List Nat} (R : WRel hash w a L) {p : Nat} (h : p ∈ L) : p < w.heap.next := by
  rcases Nat.lt_or_ge p w.heap.next with h1 | h1
  · exact h1
  · exact absurd (R.fresh p h1) (R.lostLive p h)

/-- a change of one variable by an operation with a heap footprint -/
theorem WRel.update {w : World K V} {a : MWorld K V} {L : List Nat} (R : WRel hash w a L) {i : Nat} {t t' : Table Nat} {h' : Heap K V}
    {x' : MVar K V} (ht : w.tabs i = some t) (S : HStep w.heap t h' t') (V' : VRel hash h' t' x') :
    WRel hash ({ w with heap := h' }.setTab i (some t')) (a.put i (some x')) L := by
  have lt : ∀ j u p, w.tabs j = some u → p ∈ u.entries → p < w.heap.next := by
    intro j u p hu hp
    rcases R.vars j with ⟨h1, _⟩ | ⟨t2, y, h1, h2, h3⟩
    · rw [hu] at h1; cases h1
    · rw [hu] at h1; cases h1; exact h3.rel.lt_next R.fresh hp
  refine ⟨S.fresh, ?_, ?_, ?_, ?_, ?_, R.lostNodup⟩
  · intro j
    by_cases hj : j = i
    · subst hj; right; exact ⟨t', x', by simp [setTab], by simp [MWorld.put], V'⟩
    · rcases R.vars j with ⟨h1, h2⟩ | ⟨u, y, h1, h2, h3⟩
      · left; exact ⟨by simp [setTab, hj, h1], by simp [MWorld.put, hj, h2]⟩
      · right
        refine ⟨u, y, by simp [setTab, hj, h1], by simp [MWorld.put, hj, h2], ⟨?_, h3.arr, h3.small⟩⟩
        exact h3.rel.congr (fun p hp => S.frame p (lt j u p h1 hp) (R.disj j i u t hj h1 ht p hp))
  · have key : ∀ j u, j ≠ i → w.tabs j = some u → ∀ p ∈ t'.entries, p ∉ u.entries := by
      intro j u hj hu p hp hpu
      rcases S.sub p hp with h1 | h1
      · exact R.disj i j t u (Ne.symm hj) ht hu p h1 hpu
      · have := lt j u p hu hpu; omega
    intro j l u v hjl hu hv p hp hpv
    simp only [setTab] at hu hv
    by_cases hj : j = i
    · rw [if_pos hj] at hu
      rw [if_neg (by omega)] at hv
      cases hu
      exact key l v (by omega) hv p hp hpv
    · rw [if_neg hj] at hu
      by_cases hl : l = i
      · rw [if_pos hl] at hv; cases hv; exact key j u hj hu p hpv hp
      · rw [if_neg hl] at hv; exact R.disj j l u v hjl hu hv p hp hpv
  · intro p hp
    rcases S.exact p hp with h1 | ⟨h1, h2⟩
    · exact .inl ⟨i, t', by simp [setTab], h1⟩
    · have h3 : w.heap.cells p ≠ none := by rw [← S.frame p h1 h2]; exact hp
      rcases R.own p h3 with ⟨j, u, hu, hpu⟩ | hl
      · have hj : j ≠ i := by rintro rfl; rw [ht] at hu; cases hu; exact h2 hpu
        exact .inl ⟨j, u, by simp [setTab, hj, hu], hpu⟩
      · exact .inr hl
  · intro p hp
    show h'.cells p ≠ none
    rw [S.frame p (R.lost_lt hp) (R.lostFree p hp i t ht)]
    exact R.lostLive p hp
  · intro p hp j u hu hpu
    simp only [setTab] at hu
    split at hu
    · cases hu
      rcases S.sub p hpu with h1 | h1
      · exact R.lostFree p hp i t ht h1
      · have := R.lost_lt hp; omega
    · exact R.lostFree p hp j u hu hpu

theorem WRel.old_live {w : World K V} {a : MWorld K V} {L : List Nat} (R : WRel hash w a L) {i p : Nat} (h : p ∈ w.old i ++ L) :
    w.heap.cells p ≠ none := by
  rcases List.mem_append.mp h with h | h
  · rcases R.vars i with ⟨h1, _⟩ | ⟨t, y, h1, h2, h3⟩
    · rw [old_none h1] at h; cases h
    · rw [old_some h1] at h
      intro hc
      obtain ⟨c, hc'⟩ := h3.rel.live h
      rw [hc] at hc'; cases hc'
  · exact R.lostLive p h

theorem WRel.old_lt {w : World K V} {a : MWorld K V} {L : List Nat} (R : WRel hash w a L) {i p : Nat} (h : p ∈ w.old i ++ L) :
    p < w.heap.next := by
  rcases Nat.lt_or_ge p w.heap.next with h1 | h1
  · exact h1
  · exact absurd (R.fresh p h1) (R.old_live h)

theorem WRel.old_nodup {w : World K V} {a : MWorld K V} {L : List Nat} (R : WRel hash w a L) (i : Nat) : (w.old i ++ L).Nodup := by
  rcases R.vars i with ⟨h1, _⟩ | ⟨t, y, h1, h2, h3⟩
  · rw [old_none h1]; exact R.lostNodup
  · rw [old_some h1]
    refine List.nodup_append.mpr ⟨h3.rel.nodup_addr, R.lostNodup, ?_⟩
    rintro p hp q hq rfl
    exact R.lostFree p hq i t h1 hp

theorem WRel.old_length {w : World K V} {a : MWorld K V} {L : List Nat} (R : WRel hash w a L) (i : Nat) : (w.old i).length = a.card i := by
  rcases R.vars i with ⟨h1, h2⟩ | ⟨t, y, h1, h2, h3⟩
  · rw [old_none h1]; simp [MWorld.card, h2]
  · rw [old_some h1, ← h3.rel.good.ne_eq, h3.rel.ne_eq]; simp [MWorld.card, h2]

/-- a variable becomes the owner of freshly allocated entries; what it had is lost -/
theorem WRel.add {w : World K V} {a : MWorld K V} {L : List Nat} (R : WRel hash w a L) {i : Nat} {t' : Table Nat} {h' : Heap K V}
    {x' : MVar K V} (hn : w.heap.next ≤ h'.next) (F : h'.Fresh)
    (hframe : ∀ p < w.heap.next, h'.cells p = w.heap.cells p) (hent : ∀ q ∈ t'.entries, w.heap.next ≤ q)
    (hown : ∀ q, w.heap.next ≤ q → h'.cells q ≠ none → q ∈ t'.entries) (V' : VRel hash h' t' x') :
    WRel hash ({ w with heap := h' }.setTab i (some t')) (a.put i (some x')) (w.old i ++ L) := by
  have lt : ∀ j u p, w.tabs j = some u → p ∈ u.entries → p < w.heap.next := by
    intro j u p hu hp
    rcases R.vars j with ⟨h1, _⟩ | ⟨t2, y, h1, h2, h3⟩
    · rw [hu] at h1; cases h1
    · rw [hu] at h1; cases h1; exact h3.rel.lt_next R.fresh hp
  refine ⟨F, ?_, ?_, ?_, ?_, ?_, R.old_nodup i⟩
  · intro j
    by_cases hj : j = i
    · subst hj; right; exact ⟨t', x', by simp [setTab], by simp [MWorld.put], V'⟩
    · rcases R.vars j with ⟨h1, h2⟩ | ⟨u, y, h1, h2, h3⟩
      · left; exact ⟨by simp [setTab, hj, h1], by simp [MWorld.put, hj, h2]⟩
      · right
        refine ⟨u, y, by simp [setTab, hj, h1], by simp [MWorld.put, hj, h2], ⟨?_, h3.arr, h3.small⟩⟩
        exact h3.rel.congr (fun p hp => hframe p (lt j u p h1 hp))
  · have key : ∀ j u, w.tabs j = some u → ∀ p ∈ t'.entries, p ∉ u.entries := by
      intro j u hu p hp hpu
      have := lt j u p hu hpu
      have := hent p hp
      omega
    intro j l u v hjl hu hv p hp hpv
    simp only [setTab] at hu hv
    by_cases hj : j = i
    · rw [if_pos hj] at hu
      rw [if_neg (by omega)] at hv
      cases hu
      exact key l v hv p hp hpv
    · rw [if_neg hj] at hu
      by_cases hl : l = i
      · rw [if_pos hl] at hv; cases hv; exact key j u hu p hpv hp
      · rw [if_neg hl] at hv; exact R.disj j l u v hjl hu hv p hp hpv
  · intro p hp
    rcases Nat.lt_or_ge p w.heap.next with h1 | h1
    · simp only [setTab] at hp
      rw [hframe p h1] at hp
      rcases R.own p hp with ⟨j, u, hu, hpu⟩ | hl
      · by_cases hj : j = i
        · subst hj; exact .inr (List.mem_append_left _ (by rw [old_some hu]; exact hpu))
        · exact .inl ⟨j, u, by simp [setTab, hj, hu], hpu⟩
      · exact .inr (List.mem_append_right _ hl)
    · exact .inl ⟨i, t', by simp [setTab], hown p h1 hp⟩
  · intro p hp
    show h'.cells p ≠ none
    rw [hframe p (R.old_lt hp)]
    exact R.old_live hp
  · intro p hp j u hu hpu
    simp only [setTab] at hu
    split at hu
    · cases hu
      have := hent p hpu
      have := R.old_lt hp
      omega
    · rename_i hj
      rcases List.mem_append.mp hp with hp | hp
      · cases ht : w.tabs i with
        | none => rw [old_none ht] at hp; cases hp
        | some t => rw [old_some ht] at hp; exact R.disj j i u t hj hu ht p hpu hp
      · exact R.lostFree p hp j u hu hpu

/-- moving -/
theorem WRel.moved {w : World K V} {a : MWorld K V} {L : List Nat} (R : WRel hash w a L) {i j : Nat} {t : Table Nat} {x : MVar K V} (hij : i ≠ j)
    (ht : w.tabs j = some t) (V' : VRel hash w.heap t x) :
    WRel hash ((w.setTab j (some Table.null)).setTab i (some t)) ((a.put j (some ⟨[], false⟩)).put i (some x)) (w.old i ++ L) := by
  have hnull : (Table.null : Table Nat).entries = [] := rfl
  refine ⟨R.fresh, ?_, ?_, ?_, fun p hp => R.old_live hp, ?_, R.old_nodup i⟩
  · intro l
    by_cases hl : l = i
    · subst hl; right; exact ⟨t, x, by simp [setTab], by simp [MWorld.put], V'⟩
    · by_cases hl2 : l = j
      · subst hl2
        right
        refine ⟨Table.null, ⟨[], false⟩, by simp [setTab, hl], by simp [MWorld.put, hl], ⟨⟨Or.inl rfl, ?_⟩, rfl, by simp⟩⟩
        rw [hnull]; exact List.Perm.refl _
      · rcases R.vars l with ⟨h1, h2⟩ | ⟨u, y, h1, h2, h3⟩
        · left; exact ⟨by simp [setTab, hl, hl2, h1], by simp [MWorld.put, hl, hl2, h2]⟩
        · right; exact ⟨u, y, by simp [setTab, hl, hl2, h1], by simp [MWorld.put, hl, hl2, h2], h3⟩
  · intro l m u v hlm hu hv p hp hpv
    simp only [setTab] at hu hv
    split at hu
    · rename_i h1
      subst h1
      cases hu
      rw [if_neg (by omega)] at hv
      split at hv
      · cases hv; rw [hnull] at hpv; cases hpv
      · rename_i h2; exact R.disj j m _ v (by omega) ht hv p hp hpv
    · split at hu
      · cases hu; rw [hnull] at hp; cases hp
      · rename_i h1 h2
        split at hv
        · cases hv; exact R.disj l j u _ h2 hu ht p hp hpv
        · split at hv
          · cases hv; rw [hnull] at hpv; cases hpv
          · exact R.disj l m u v hlm hu hv p hp hpv
  · intro p hp
    rcases R.own p hp with ⟨l, u, hu, hpu⟩ | hl
    · by_cases hl : l = i
      · subst hl; exact .inr (List.mem_append_left _ (by rw [old_some hu]; exact hpu))
      · by_cases hl2 : l = j
        · subst hl2
          rw [ht] at hu; cases hu
          exact .inl ⟨i, t, by simp [setTab], hpu⟩
        · exact .inl ⟨l, u, by simp [setTab, hl, hl2, hu], hpu⟩
    · exact .inr (List.mem_append_right _ hl)
  · intro p hp l u hu hpu
    simp only [setTab] at hu
    have aux : ∀ m v, m ≠ i → w.tabs m = some v → p ∉ v.entries := by
      intro m v hm hv hpv
      rcases List.mem_append.mp hp with hp | hp
      · cases hti : w.tabs i with
        | none => rw [old_none hti] at hp; cases hp
        | some t0 => rw [old_some hti] at hp; exact R.disj m i v t0 hm hv hti p hpv hp
      · exact R.lostFree p hp m v hv hpv
    split at hu
    · cases hu; exact aux j _ (Ne.symm hij) ht hpu
    · rename_i hl
      split at hu
      · cases hu; rw [hnull] at hpu; cases hpu
      · exact aux l u hl hu hpu

/-- a new table without entries -/
theorem WRel.newTab {w : World K V} {a : MWorld K V} {L : List Nat} (R : WRel hash w a L) {i : Nat} {t' : Table Nat} {x' : MVar K V}
    (hold : w.tabs i = none) (he : t'.entries = []) (V' : VRel hash w.heap t' x') :
    WRel hash (w.setTab i (some t')) (a.put i (some x')) L := by
  have := R.add (i := i) (t' := t') (h' := w.heap) (x' := x') (Nat.le_refl _) R.fresh
    (fun _ _ => rfl) (by rw [he]; intro q hq; cases hq) (fun q h1 h2 => absurd (R.fresh q h1) h2) V'
  rw [old_none hold] at this
  exact this

theorem step_sim {w : World K V} {a : MWorld K V} {L : List Nat} (R : WRel hash w a L) (s : Stmt K V) (hp : MPre a s) :
    ∃ w' L', step hash dflt w s = .ok w' ∧ WRel hash w' (mstep dflt a s) L' ∧ L'.length = forgets a s + L.length ∧ ∀ p ∈ L, p ∈ L' := by
  suffices h : ∃ w', step hash dflt w s = .ok w' ∧ ((forgets a s = 0 ∧ WRel hash w' (mstep dflt a s) L) ∨
      ∃ i, forgets a s = a.card i ∧ WRel hash w' (mstep dflt a s) (w.old i ++ L)) by
    obtain ⟨w', e, ⟨h0, R'⟩ | ⟨i, h0, R'⟩⟩ := h
    · exact ⟨w', L, e, R', by omega, fun _ h => h⟩
    · exact ⟨w', _, e, R', by rw [List.length_append, R.old_length, h0], fun _ h => List.mem_append_right _ h⟩
  have mk : ∀ {w'}, forgets a s = 0 → step hash dflt w s = .ok w' → WRel hash w' (mstep dflt a s) L → 
      ∃ w', step hash dflt w s = .ok w' ∧ ((forgets a s = 0 ∧ WRel hash w' (mstep dflt a s) L) ∨
      ∃ i, forgets a s = a.card i ∧ WRel hash w' (mstep dflt a s) (w.old i ++ L)) := fun h0 e R' => ⟨_, e, .inl ⟨h0, R'⟩⟩
  cases s with
  | new i n =>
    obtain ⟨h1, h2⟩ := hp
    refine mk rfl rfl ?_
    obtain ⟨g1, g2⟩ := Table.new_good (E := Nat) hash w.heap.keyOf h2
    refine R.newTab (R.get_none h1) g2 ⟨⟨g1, ?_⟩, ?_, by simp⟩
    · rw [g2]; exact List.Perm.refl _
    · simp only [Table.new, w32_of_lt (by omega : n < 4294967296)]
      by_cases h0 : n = 0
      · simp [h0, Table.null]
      · simp [h0, Table.initTable]
  | copyNew i j =>
    obtain ⟨h1, x, h2, h3⟩ := hp
    obtain ⟨t, ht, V'⟩ := R.get h2
    obtain ⟨h', t', e1, e2, _, e4, e5, e6, e7, e8, e9⟩ := copy_sim V'.rel R.fresh (by rw [V'.arr]; exact h3)
    refine mk rfl (by simp [step, tab, ht, e1]; rfl) ?_
    have := R.add (i := i) e5 e6 e7 (fun q hq => (e8 q hq).1) e9
      (x' := x) ⟨e2, by rw [e4, h3], V'.small⟩
    rw [old_none (R.get_none h1)] at this
    simpa [mstep, h2] using this
  | moveNew i j =>
    obtain ⟨h1, x, h2⟩ := hp
    obtain ⟨t, ht, V'⟩ := R.get h2
    refine mk rfl (by simp [step, tab, ht, move]; rfl) ?_
    have hij : i ≠ j := by rintro rfl; rw [h1] at h2; cases h2
    have := R.moved hij ht V'
    rw [old_none (R.get_none h1)] at this
    simpa [mstep, h2] using this
  | copyAssign i j =>
    obtain ⟨hij, ⟨y, h1⟩, x, h2, h3⟩ := hp
    obtain ⟨t, ht, V'⟩ := R.get h2
    obtain ⟨u, hu, U'⟩ := R.get h1
    obtain ⟨h', t', e1, e2, _, e4, e5, e6, e7, e8, e9⟩ := copyAssign_sim V'.rel R.fresh (by rw [V'.arr]; exact h3) u
    refine ⟨_, by simp [step, tab, ht, hu, hij, e1]; rfl, .inr ⟨i, rfl, ?_⟩⟩
    have := R.add (i := i) e5 e6 e7 (fun q hq => (e8 q hq).1) e9
      (x' := x) ⟨e2, by rw [e4, h3], V'.small⟩
    simpa [mstep, h2] using this
  | moveAssign i j =>
    obtain ⟨⟨y, h1⟩, x, h2⟩ := hp
    obtain ⟨t, ht, V'⟩ := R.get h2
    obtain ⟨u, hu, U'⟩ := R.get h1
    by_cases hij : i = j
    · exact mk (w' := w) (by simp [forgets, hij]) (by simp [step, tab, ht, hu, hij]) (by simpa [mstep, hij] using R)
    · refine ⟨_, by simp [step, tab, ht, hu, hij, move]; rfl, .inr ⟨i, by simp [forgets, hij], ?_⟩⟩
      have := R.moved hij ht V'
      simpa [mstep, h2, hij] using this
  | destroy i =>
    obtain ⟨x, h1⟩ := hp
    obtain ⟨t, ht, V'⟩ := R.get h1
    obtain ⟨h', t', e1, e2, _, e4⟩ := clear_sim V'.rel R.fresh
    refine mk rfl (by simp [step, tab, ht, destroy, e1]; rfl) ?_
    have he : t'.entries = [] := by rw [← List.length_eq_zero_iff, ← e2.good.ne_eq, e2.ne_eq]; rfl
    have R2 := R.update ht e4 (x' := ⟨[], t'.init⟩) ⟨e2, rfl, by simp⟩
    refine ⟨R2.fresh, ?_, ?_, ?_, R2.lostLive, ?_, R2.lostNodup⟩
    · intro l
      by_cases hl : l = i
      · subst hl; left; exact ⟨by simp [setTab], by simp [mstep, MWorld.put]⟩
      · have := R2.vars l
        simpa [setTab, mstep, MWorld.put, hl] using this
    · intro l m u v hlm hu hv
      simp only [setTab] at hu hv
      split at hu
      · cases hu
      · split at hv
        · cases hv
        · rename_i h5 h6
          exact R2.disj l m u v hlm (by simpa [setTab, h5] using hu) (by simpa [setTab, h6] using hv)
    · intro p hp2
      rcases R2.own p hp2 with ⟨l, u, hu, hpu⟩ | hl
      · by_cases hl : l = i
        · subst hl
          simp [setTab] at hu
          rw [← hu, he] at hpu; cases hpu
        · exact .inl ⟨l, u, by simpa [setTab, hl] using hu, hpu⟩
      · exact .inr hl
    · intro p hp2 l u hu
      simp only [setTab] at hu
      split at hu
      · cases hu
      · rename_i h5
        exact R2.lostFree p hp2 l u (by simpa [setTab, h5] using hu)
  | insert i k =>
    obtain ⟨x, h1, h2⟩ := hp
    obtain ⟨t, ht, V'⟩ := R.get h1
    rcases insert_sim (dflt := dflt) V'.rel R.fresh h2 k with ⟨p, v, e1, e2, e3, e4⟩ | ⟨e0, t', e1, e2, e3, e4⟩
    · refine mk rfl (by simp [step, tab, ht, e1]; rfl) ?_
      have hi : t.init = true := by
        rcases V'.rel.good with rfl | W
        · simp [Table.entries, Table.null] at e2
        · exact W.init
      have := R.update ht (HStep.refl R.fresh (List.Perm.refl _)) (x' := x) ⟨V'.rel, V'.arr, V'.small⟩
      have hx : (⟨x.map.insertNew k dflt, true⟩ : MVar K V) = x := by
        have : x.arr = true := by rw [← V'.arr, hi]
        obtain ⟨xm, xa⟩ := x
        simp only at this e4
        simp [FMap.insertNew, e4, this]
      simpa [mstep, h1, hx] using this
    · refine mk rfl (by simp [step, tab, ht, e1]; rfl) ?_
      have := R.update ht (alloc_hstep R.fresh V'.rel e4) (x' := ⟨(k, dflt) :: x.map, true⟩) ⟨e2, e3, by simp; omega⟩
      simpa [mstep, h1, FMap.insertNew, e0] using this
  | assign i k v =>
    obtain ⟨x, h1, h2⟩ := hp
    obtain ⟨t, ht, V'⟩ := R.get h1
    obtain ⟨h', t', p, e1, e2, e3, e4, e5, e6, _⟩ := assign_sim (dflt := dflt) V'.rel R.fresh h2 k v
    refine mk rfl (by simp [step, tab, ht, e1]; rfl) ?_
    have hl : (x.map.set k v).length ≤ 1073643498 := by
      have := length_erase_le x.map k
      simp only [FMap.set, List.length_cons]; omega
    have := R.update ht e4 (x' := ⟨x.map.set k v, true⟩) ⟨e2, e3, hl⟩
    simpa [mstep, h1] using this
  | erase i k =>
    obtain ⟨x, h1⟩ := hp
    obtain ⟨t, ht, V'⟩ := R.get h1
    obtain ⟨h', t', e1, e2, e3, e4, _⟩ := erase_sim V'.rel R.fresh V'.small k
    refine mk rfl (by simp [step, tab, ht, e1]; rfl) ?_
    have hl := length_erase_le x.map k
    have := R.update ht e4 (x' := ⟨x.map.erase k, x.arr⟩) ⟨e2, by rw [e3, V'.arr], Nat.le_trans hl V'.small⟩
    simpa [mstep, h1] using this
  | find i k =>
    obtain ⟨x, h1⟩ := hp
    obtain ⟨t, ht, V'⟩ := R.get h1
    exact mk rfl (by simp [step, tab, ht, lookup_sim V'.rel k]) R
  | clear i =>
    obtain ⟨x, h1⟩ := hp
    obtain ⟨t, ht, V'⟩ := R.get h1
    obtain ⟨h', t', e1, e2, e3, e4⟩ := clear_sim V'.rel R.fresh
    refine mk rfl (by simp [step, tab, ht, e1]; rfl) ?_
    have := R.update ht e4 (x' := ⟨[], x.arr && x.map.isEmpty⟩) ⟨e2, by rw [e3, V'.arr], by simp⟩
    simpa [mstep, h1] using this
  | rehash i =>
    obtain ⟨x, h1⟩ := hp
    obtain ⟨t, ht, V'⟩ := R.get h1
    obtain ⟨t', e1, e2, e3, e4⟩ := rehash_sim V'.rel R.fresh V'.small
    refine mk rfl (by simp [step, tab, ht, e1]; rfl) ?_
    have := R.update ht (HStep.refl R.fresh e4) (x' := x) ⟨e2, by rw [e3, V'.arr], V'.small⟩
    have hput : a.put i (some x) = a := by
      funext l
      simp only [MWorld.put]
      split
      · rename_i h; rw [h, h1]
      · rfl
    rw [hput] at this
    exact this
  | rehashN i n =>
    obtain ⟨x, h1, h2, h3⟩ := hp
    obtain ⟨t, ht, V'⟩ := R.get h1
    obtain ⟨t', e1, e2, e3, e4, _⟩ := rehashN_sim V'.rel R.fresh h2 (by omega)
    refine mk rfl (by simp [step, tab, ht, e1]; rfl) ?_
    have := R.update ht (HStep.refl R.fresh e4) (x' := ⟨x.map, true⟩) ⟨e2, e3, V'.small⟩
    simpa [mstep, h1] using this

theorem run_sim : ∀ (ss : List (Stmt K V)) (w : World K V) (a : MWorld K V) (L : List Nat), WRel hash w a L → MPres dflt a ss →
    ∃ w' L', run hash dflt w ss = .ok w' ∧ WRel hash w' (mrun dflt a ss) L' ∧ L'.length = forgotten dflt a ss + L.length ∧ ∀ p ∈ L, p ∈ L' := by
  intro ss
  induction ss with
  | nil => intro w a L R _; exact ⟨w, L, rfl, R, by simp [forgotten], fun _ h => h⟩
  | cons s ss ih =>
    intro w a L R hp
    obtain ⟨w1, L1, e1, R1, n1, s1⟩ := step_sim (dflt := dflt) R s hp.1
    obtain ⟨w2, L2, e2, R2, n2, s2⟩ := ih w1 _ L1 R1 hp.2
    exact ⟨w2, L2, by simp [run, e1, e2], R2, by simp only [forgotten]; omega, fun p h => s2 p (s1 p h)⟩

end World
end Eni
