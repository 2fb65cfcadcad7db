import Verif.Proofs.HashIterLaws
/-!
# Properties C81, C82: iterators of hash tables in programs with several tables
-/
namespace Eni.Props
open Spec
variable {K V : Type} [DecidableEq K]

/-- two live tables with bindings, one of them a copy, used in the examples -/
def iterProg : List (Stmt Nat Nat) := [.new 0 8, .assign 0 1 5, .assign 0 2 6, .copyNew 1 0, .erase 0 2]

theorem iterProg_pres : MPres 0 (fun _ => none) iterProg := by simp [iterProg, MPres, MPre, mstep, MWorld.put, FMap.set, FMap.erase]

/-- C81, equality. After any program over any number of tables that follows the rules `MPre`, for any live tables `i` and `j`: `find`
returns an iterator in either table; the two compare equal exactly if they stand for the same binding or both keys are unbound; an iterator
compares equal to `end()` exactly if the key is unbound; otherwise it designates the key and its value; and using the end throws. -/
theorem C81_equality (hash : K → UInt32) (dflt : V) (ss : List (Stmt K V)) (hp : MPres dflt (fun _ => none) ss) :
    ∃ w, World.run hash dflt World.start ss = .ok w ∧ (∀ k, w.deref .fin = .throw .invalidIteratorEmpty ∧ w.next .fin = .throw .invalidIteratorEmpty ∧
      ∀ i x, mrun dflt (fun _ => none) ss i = some x → ∃ it, w.find hash i k = .ok it ∧
        (it.equals .fin = true ↔ x.map.lookup k = none) ∧ (∀ v, x.map.lookup k = some v → w.deref it = .ok ⟨k, v⟩) ∧
        ∀ j y k', mrun dflt (fun _ => none) ss j = some y → ∃ it', w.find hash j k' = .ok it' ∧
          (it.equals it' = true ↔
            (x.map.lookup k = none ∧ y.map.lookup k' = none) ∨ (x.map.lookup k ≠ none ∧ i = j ∧ k = k'))) := by
  obtain ⟨w, L, h1, R, hL, _⟩ := World.run_sim (dflt := dflt) ss _ _ _ (World.start_rel (hash := hash)) hp
  refine ⟨w, h1, fun k => ⟨rfl, rfl, fun i x hx => ?_⟩⟩
  generalize mrun dflt (fun _ => none) ss = a at *
  -- what find returns
  have key : ∀ i x k, a i = some x → (w.find hash i k = .ok .fin ∧ x.map.lookup k = none) ∨
      ∃ t p b e v, w.tabs i = some t ∧ w.find hash i k = .ok ⟨some i, p⟩ ∧ t.buckets[p]? = some b ∧ b.slot = .full e ∧
        w.heap.cells e = some ⟨k, v⟩ ∧ x.map.lookup k = some v := by
    intro i x k hx
    obtain ⟨t, ht, hr⟩ := R.get hx
    rcases hr.rel.good with rfl | W
    · left
      refine ⟨by simp [World.find, World.tab, ht, HashTable.findIter, Table.findKey, Table.null, EIt.of], ?_⟩
      exact hr.rel.none_of (fun p hp => by simp [Table.entries, Table.null] at hp)
    · rcases W.findKey_spec k with ⟨hf, hno⟩ | ⟨p, b, e, hf, hi, hs, hk⟩
      · left
        exact ⟨by simp [World.find, World.tab, ht, HashTable.findIter, hf, EIt.of], hr.rel.none_of hno⟩
      · right
        obtain ⟨v, hc, hl⟩ := hr.rel.of_key (Table.mem_ents.mpr ⟨p, b, hi, hs⟩) hk
        exact ⟨t, p, b, e, v, ht, by simp [World.find, World.tab, ht, HashTable.findIter, hf, EIt.of], hi, hs, hc, hl⟩
  rcases key i x k hx with ⟨hf, hl⟩ | ⟨t, p, b, e, v, ht, hf, hi, hs, hc, hl⟩
  · refine ⟨.fin, hf, by simp [hl, EIt.equals_iff], fun v hv => (by rw [hl] at hv; cases hv), ?_⟩
    intro j y k' hy
    rcases key j y k' hy with ⟨hf', hl'⟩ | ⟨t', p', b', e', v', ht', hf', hi', hs', hc', hl'⟩
    · exact ⟨.fin, hf', by simp [hl, hl', EIt.equals_iff]⟩
    · exact ⟨_, hf', by simp [hl, hl', EIt.equals_iff, EIt.fin]⟩
  · refine ⟨_, hf, by simp [hl, EIt.equals_iff, EIt.fin], ?_, ?_⟩
    · intro v' hv'
      rw [hl] at hv'
      cases hv'
      simp [World.deref, World.tab, ht, World.getEntry_full hi hs, hc]
    · intro j y k' hy
      rcases key j y k' hy with ⟨hf', hl'⟩ | ⟨t', p', b', e', v', ht', hf', hi', hs', hc', hl'⟩
      · refine ⟨_, hf', ?_⟩
        rw [EIt.equals_iff]
        simp only [EIt.fin, hl, hl']
        constructor
        · intro h; cases h
        · rintro (⟨h, _⟩ | ⟨_, rfl, rfl⟩)
          · cases h
          · rw [hx] at hy; cases hy; rw [hl] at hl'; cases hl'
      · refine ⟨_, hf', ?_⟩
        rw [EIt.equals_iff]
        simp only [hl, hl']
        constructor
        · intro h
          simp only [EIt.mk.injEq, Option.some.injEq] at h
          obtain ⟨rfl, rfl⟩ := h
          right
          refine ⟨by simp, rfl, ?_⟩
          rw [ht] at ht'
          cases ht'
          rw [hi] at hi'
          cases hi'
          rw [hs] at hs'
          cases hs'
          rw [hc] at hc'
          cases hc'
          rfl
        · rintro (⟨h, _⟩ | ⟨_, rfl, rfl⟩)
          · cases h
          · rw [hf] at hf'; cases hf'; rfl

example := C81_equality (fun k : Nat => UInt32.ofNat k) 0 iterProg iterProg_pres

/-- C81, iteration. After any such program, the loop from `begin()` to `end()` over a live table visits every binding exactly once, the
`n`-th iterator is the one `find` returns for the key visited there, and the increment of the last one gives `end()`. -/
theorem C81_iteration (hash : K → UInt32) (dflt : V) (ss : List (Stmt K V)) (hp : MPres dflt (fun _ => none) ss) :
    ∃ w, World.run hash dflt World.start ss = .ok w ∧ ∀ i x, mrun dflt (fun _ => none) ss i = some x →
      ∃ it fuel cs, w.beginIt i = .ok it ∧ w.walk fuel it = .ok cs ∧ cs.Perm (x.map.map fun kv => ⟨kv.1, kv.2⟩) ∧
        w.nexts cs.length it = .ok .fin ∧
        ∀ n c, cs[n]? = some c → ∃ it', w.nexts n it = .ok it' ∧ w.deref it' = .ok c ∧ w.find hash i c.key = .ok it' := by
  obtain ⟨w, L, h1, R, hL, _⟩ := World.run_sim (dflt := dflt) ss _ _ _ (World.start_rel (hash := hash)) hp
  refine ⟨w, h1, fun i x hx => ?_⟩
  generalize mrun dflt (fun _ => none) ss = a at *
  obtain ⟨t, ht, hr⟩ := R.get hx
  have hb := World.beginIt_spec ht hr.rel.good
  rcases hr.rel.good with rfl | W
  · refine ⟨.fin, 0, [], hb, rfl, ?_, rfl, fun n c h => by simp at h⟩
    exact World.cells_perm hr.rel rfl
  · obtain ⟨cs, g1, g2, g3, g4⟩ := World.walk_spec ht W (fun p hp => hr.rel.live hp) t.nb 0 (by omega) (by omega)
    exact ⟨_, t.nb, cs, hb, g1, World.cells_perm hr.rel (by rw [g2, List.drop_zero, Table.entries_eq]), g3, g4⟩

/-- two tables, one a copy of the other -/
example : MPres (0 : Nat) (fun _ => none) ([.new 0 8, .assign 0 1 5, .assign 0 2 6, .copyNew 1 0, .erase 0 2] : List (Stmt Nat Nat)) := by
  simp [MPres, MPre, mstep, MWorld.put, FMap.set, FMap.erase]

/-- iterators to the same key of a table and of its copy differ, the ends are the same -/
example : ∃ w a b, World.run (fun k : Nat => UInt32.ofNat k) 0 World.start [.new 0 8, .assign 0 1 5, .copyNew 1 0] = .ok w ∧
    w.find (fun k : Nat => UInt32.ofNat k) 0 1 = .ok a ∧ w.find (fun k : Nat => UInt32.ofNat k) 1 1 = .ok b ∧ a.equals b = false ∧
    a.index = b.index := ⟨_, _, _, rfl, rfl, rfl, rfl, rfl⟩

/-- C82, what holds: after any program that follows the rules, for any live table, the loop from `begin(k)` to `end(k)` for a bound key `k`
visits the entry of `k` first and altogether every binding whose key has the hash value of `k` exactly once; for an unbound key whose hash
value is not 0 it visits nothing, if the table owns an array. Missing: unbound keys with hash value 0 and tables without array - false, see
below. -/
theorem C82_chain_partial (hash : K → UInt32) (dflt : V) (ss : List (Stmt K V)) (hp : MPres dflt (fun _ => none) ss) :
    ∃ w, World.run hash dflt World.start ss = .ok w ∧ ∀ i x k, mrun dflt (fun _ => none) ss i = some x →
      (∀ v, x.map.lookup k = some v → ∃ it fuel cs, w.chainBegin hash i k = .ok it ∧ w.chainWalk fuel it = .ok (⟨k, v⟩ :: cs) ∧
        ((⟨k, v⟩ : Cell K V) :: cs).Perm ((x.map.filter fun kv => decide (hash kv.1 = hash k)).map fun kv => ⟨kv.1, kv.2⟩)) ∧
      (x.map.lookup k = none → x.arr = true → hash k ≠ 0 → w.chainBegin hash i k = .ok .fin ∧ w.chainWalk 0 .fin = .ok []) := by
  obtain ⟨w, L, h1, R, hL, _⟩ := World.run_sim (dflt := dflt) ss _ _ _ (World.start_rel (hash := hash)) hp
  have z := World.run_ez ss _ _ World.start_ez h1
  refine ⟨w, h1, fun i x k hx => ?_⟩
  generalize mrun dflt (fun _ => none) ss = a at *
  obtain ⟨t, ht, hr⟩ := R.get hx
  refine ⟨fun v hv => ?_, fun hk ha hh => ?_⟩
  · obtain ⟨it, cs, g1, g2, g3⟩ := World.chain_present ht hr.rel hv
    exact ⟨it, t.nb, cs, g1, g2, g3⟩
  · exact ⟨(World.chain_absent ht hr.rel z (by rw [hr.arr]; exact ha) hk).1 hh, rfl⟩

example := C82_chain_partial (fun k : Nat => UInt32.ofNat k) 0 iterProg iterProg_pres

/-- C82, equality: after any such program the iterators `begin(k)` and `begin(k')` of any two live tables, for bound keys, compare equal
exactly if table and key are the same; none of them is equal to `end(k)`; incrementing the end leaves it, dereferencing it throws. -/
theorem C82_equality (hash : K → UInt32) (dflt : V) (ss : List (Stmt K V)) (hp : MPres dflt (fun _ => none) ss) :
    ∃ w, World.run hash dflt World.start ss = .ok w ∧ w.chainNext .fin = .ok .fin ∧ w.chainDeref .fin = .throw .invalidIteratorEmpty ∧
      ∀ i x k v, mrun dflt (fun _ => none) ss i = some x → x.map.lookup k = some v → ∃ it, w.chainBegin hash i k = .ok it ∧
        it.equals it = true ∧ it.equals .fin = false ∧ CIt.equals .fin it = false ∧
        ∀ j y k' v', mrun dflt (fun _ => none) ss j = some y → y.map.lookup k' = some v' → ∃ it', w.chainBegin hash j k' = .ok it' ∧
          (it.equals it' = true ↔ i = j ∧ k = k') := by
  obtain ⟨w, L, h1, R, hL, _⟩ := World.run_sim (dflt := dflt) ss _ _ _ (World.start_rel (hash := hash)) hp
  refine ⟨w, h1, rfl, rfl, ?_⟩
  generalize mrun dflt (fun _ => none) ss = a at *
  have key : ∀ i x k v, a i = some x → x.map.lookup k = some v → ∃ t p b e, w.tabs i = some t ∧
      w.chainBegin hash i k = .ok ⟨some i, p, hash k, p⟩ ∧ t.buckets[p]? = some b ∧ b.slot = .full e ∧ w.heap.keyOf e = some k := by
    intro i x k v hx hv
    obtain ⟨t, ht, hr⟩ := R.get hx
    rcases hr.rel.good with rfl | W
    · have := hr.rel.none_of (k := k) (fun p hp => by simp [Table.entries, Table.null] at hp)
      rw [hv] at this; cases this
    · rcases W.findKey_spec k with ⟨_, hno⟩ | ⟨p, b, e, _, hi, hs, hk⟩
      · have := hr.rel.none_of hno
        rw [hv] at this; cases this
      · obtain ⟨g1, _⟩ := World.chainBegin_present W hi hs hk
        exact ⟨t, p, b, e, ht, by simp [World.chainBegin, World.tab, ht, g1, CIt.of], hi, hs, hk⟩
  intro i x k v hx hv
  obtain ⟨t, p, b, e, ht, hb, hi, hs, hk⟩ := key i x k v hx hv
  refine ⟨_, hb, by simp [CIt.equals], by simp [CIt.equals, CIt.fin], by simp [CIt.equals, CIt.fin], ?_⟩
  intro j y k' v' hy hv'
  obtain ⟨t', p', b', e', ht', hb', hi', hs', hk'⟩ := key j y k' v' hy hv'
  refine ⟨_, hb', ?_⟩
  constructor
  · intro h
    simp only [CIt.equals, beq_iff_eq, Option.some.injEq, reduceCtorEq, if_false] at h
    split at h
    · rename_i hij
      subst hij
      simp only [Bool.and_eq_true, beq_iff_eq] at h
      obtain ⟨_, rfl⟩ := h
      rw [ht] at ht'; cases ht'
      rw [hi] at hi'; cases hi'
      rw [hs] at hs'; cases hs'
      rw [hk] at hk'; cases hk'
      exact ⟨rfl, rfl⟩
    · cases h
  · rintro ⟨rfl, rfl⟩
    rw [hb] at hb'
    cases hb'
    simp [CIt.equals]

example := C82_equality (fun k : Nat => UInt32.ofNat k) 0 iterProg iterProg_pres

/-- C82 is false of the code: after any program, `begin(k)` for an unbound key with hash value 0 dereferences a null pointer, and for a
table without array it computes `% 0`. -/
theorem C82_absent_false (hash : K → UInt32) (dflt : V) (ss : List (Stmt K V)) (hp : MPres dflt (fun _ => none) ss) :
    ∃ w, World.run hash dflt World.start ss = .ok w ∧ ∀ i x k, mrun dflt (fun _ => none) ss i = some x →
      (x.map.lookup k = none → x.arr = true → hash k = 0 → w.chainBegin hash i k = .ub .nullDeref) ∧
      (x.arr = false → w.chainBegin hash i k = .ub .divZero) := by
  obtain ⟨w, L, h1, R, hL, _⟩ := World.run_sim (dflt := dflt) ss _ _ _ (World.start_rel (hash := hash)) hp
  have z := World.run_ez ss _ _ World.start_ez h1
  refine ⟨w, h1, fun i x k hx => ?_⟩
  generalize mrun dflt (fun _ => none) ss = a at *
  obtain ⟨t, ht, hr⟩ := R.get hx
  refine ⟨fun hk ha hh => (World.chain_absent ht hr.rel z (by rw [hr.arr]; exact ha) hk).2 hh, fun ha => ?_⟩
  rcases hr.rel.good with rfl | W
  · simp [World.chainBegin, World.tab, ht, HashTable.chainBegin, Table.null]
  · have := W.init
    rw [hr.arr, ha] at this
    cases this

/-- the two situations occur -/
example : MPres (0 : Nat) (fun _ => none) ([.new 0 8, .assign 0 1 5, .new 1 0] : List (Stmt Nat Nat)) ∧
    mrun (0 : Nat) (fun _ => none) ([.new 0 8, .assign 0 1 5, .new 1 0] : List (Stmt Nat Nat)) 0 = some ⟨[(1, 5)], true⟩ ∧
    mrun (0 : Nat) (fun _ => none) ([.new 0 8, .assign 0 1 5, .new 1 0] : List (Stmt Nat Nat)) 1 = some ⟨[], false⟩ := by
  simp [MPres, MPre, mrun, mstep, MWorld.put, FMap.set, FMap.erase]

/-- two keys with the same hash value: one is visited in the chain of the other, as another iterator -/
example : ∃ w a b c, World.run (fun _ : Nat => (16 : UInt32)) 0 World.start [.new 0 8, .assign 0 1 5, .assign 0 2 6] = .ok w ∧
    w.chainBegin (fun _ : Nat => (16 : UInt32)) 0 1 = .ok a ∧ w.chainBegin (fun _ : Nat => (16 : UInt32)) 0 2 = .ok b ∧
    w.chainNext a = .ok c ∧ a.equals b = false ∧ a.equals c = false := ⟨_, _, _, _, rfl, rfl, rfl, rfl, rfl, rfl⟩

/-- a chain of three keys with the same hash value, one of them reached by wrapping around -/
example : ∃ w it, World.run (fun _ : Nat => (16 : UInt32)) 0 World.start [.new 0 8, .assign 0 1 5, .assign 0 2 6, .assign 0 3 7] = .ok w ∧
    w.chainBegin (fun _ : Nat => (16 : UInt32)) 0 2 = .ok it ∧ w.chainWalk 17 it = .ok [⟨2, 6⟩, ⟨3, 7⟩, ⟨1, 5⟩] :=
  ⟨_, _, rfl, rfl, rfl⟩

end Eni.Props
