import Verif.Proofs.HashErase
import Verif.Props.HashTable
/-!
# Properties C79, C80: removal and iterators of a `HashTable`
-/
namespace Eni.Props
open Spec HashTable
variable {K V : Type} [DecidableEq K]

theorem noRehashN {ops : List (TOp K V)} (hr : ∀ n, TOp.rehashN n ∉ ops) : ∀ op ∈ ops, NoRehashN op := by
  intro op hop
  cases op with
  | rehashN n => exact absurd hop (hr n)
  | _ => trivial

/-- C79, what holds: after any history without `rehash(n)` that leaves at most 536870911 buckets, removing a key - whether it is bound or
not - leaves every iterator to an entry with another key valid: it designates the same entry, with unchanged contents, and is still what
`find` returns for that key. Missing: histories with `rehash(n)` - false, see below - and larger tables. -/
theorem C79_erase_partial (hash : K → UInt32) (dflt : V) (size : Nat) (ops : List (TOp K V)) (k : K) (hs : size ≤ 1431524664)
    (hp : TPres dflt [] ops) (hr : ∀ n, TOp.rehashN n ∉ ops) :
    ∃ h t rs h' t' b, runOps hash dflt Heap.empty (Table.new size) ops = .ok (h, t, rs) ∧ erase hash h t k = .ok (h', t', b) ∧
      (t.nb ≤ 536870911 →
        (∀ i p, getEntry t (some i) = .ok p → h.keyOf p ≠ some k →
          getEntry t' (some i) = .ok p ∧ h'.cells p = h.cells p ∧ ∃ k' v, h.cells p = some ⟨k', v⟩ ∧ findIter hash h' t' k' = .ok (some i)) ∧
        ∀ k', k' ≠ k → findIter hash h' t' k' = findIter hash h t k') := by
  obtain ⟨h, t, h1, R, F, hl, _, _⟩ := runOps_sim (dflt := dflt) ops _ _ _ (new_rel hash hs) empty_fresh (by simp) hp
  have L := runOps_load (dflt := dflt) ops _ _ _ (new_rel (V := V) hash hs) empty_fresh (by simp) hp (noRehashN hr) (new_load hs) _ _ _ h1
  generalize (truns dflt [] ops).1 = m at *
  obtain ⟨h', t', e1, R', e2, S, e3⟩ := erase_sim R F hl k
  refine ⟨h, t, _, h', t', _, h1, e1, fun hb => ?_⟩
  rcases R.good with rfl | W
  · have : t' = Table.null := by
      have he : erase hash h (Table.null : Table Nat) k = .ok (h, Table.null, false) := rfl
      rw [he] at e1
      simp at e1
      exact e1.2.1.symm
    subst this
    exact ⟨fun i p hg => by simp [getEntry, Table.null] at hg, fun _ _ => rfl⟩
  · have C : Calm t := by
      rcases L.calm hb with rfl | C
      · have := W.room; simp [Table.null] at this
      · exact C
    -- the removal leaves all other buckets alone
    have key : (∀ (j : Nat) (b : Bucket Nat) p, t.buckets[j]? = some b → b.slot = .full p → h.keyOf p ≠ some k → t'.buckets[j]? = some b) ∧
        Table.WF hash h'.keyOf t' := by
      rcases Table.WF.findKey_spec W k with ⟨hf, hno⟩ | ⟨i, b, p, hf, hi, hsl, hk⟩
      · have he : erase hash h t k = .ok (h, t, false) := by simp [erase, Table.eraseE, hf]
        rw [he] at e1
        simp at e1
        obtain ⟨rfl, rfl, _⟩ := e1
        exact ⟨fun j b p hj _ _ => hj, W⟩
      · obtain ⟨h2, e4, R2, _⟩ := erase_inplace R F hl C W hi hsl hk
        rw [e4] at e1
        simp at e1
        obtain ⟨rfl, rfl, _⟩ := e1
        refine ⟨fun j b' p' hj hs' hk' => ?_, ?_⟩
        · simp only [tombAt]
          rw [List.getElem?_set_ne, hj]
          rintro rfl
          rw [hi] at hj
          cases hj
          rw [hsl] at hs'
          cases hs'
          exact hk' hk
        · rcases R2.good with hn | hw
          · have := W.room
            have h0 : (tombAt t i b).nb = 0 := by rw [hn]; rfl
            simp only [tombAt] at h0
            omega
          · exact hw
    obtain ⟨keep, W'⟩ := key
    have hfind : ∀ (j : Nat) (b : Bucket Nat) p k', t.buckets[j]? = some b → b.slot = .full p → h.keyOf p = some k' → k' ≠ k →
        findIter hash h' t' k' = .ok (some j) := by
      intro j b p k' hj hsl hk' hne
      have hpk : h.keyOf p ≠ some k := by rw [hk']; intro h; exact hne (Option.some.inj h)
      have hc := (e3 p (Table.mem_ents.mpr ⟨j, b, hj, hsl⟩) hpk).2
      exact find_at W' (keep j b p hj hsl hpk) hsl (by rw [Heap.keyOf, hc]; exact hk')
    refine ⟨?_, ?_⟩
    · intro i p hg hpk
      obtain ⟨b, hi, hsl⟩ : ∃ b, t.buckets[i]? = some b ∧ b.slot = .full p := by
        simp only [getEntry] at hg
        split at hg
        · rename_i bh e hi
          cases hg
          exact ⟨_, hi, rfl⟩
        · cases hg
      have hmem : p ∈ t.entries := Table.mem_ents.mpr ⟨i, b, hi, hsl⟩
      obtain ⟨⟨k', v⟩, hc⟩ := R.live hmem
      have hkey : h.keyOf p = some k' := by simp [Heap.keyOf, hc]
      refine ⟨?_, (e3 p hmem hpk).2, k', v, hc, hfind i b p k' hi hsl hkey ?_⟩
      · have := keep i b p hi hsl hpk
        obtain ⟨bh, bs⟩ := b
        simp only at hsl
        subst hsl
        simp only [getEntry, this]
      · rintro rfl; exact hpk hkey
    · intro k' hne
      rcases Table.WF.findKey_spec W k' with ⟨hf, hno⟩ | ⟨i, b, p, hf, hi, hsl, hk'⟩
      · have : findIter hash h t k' = .ok none := hf
        rw [this]
        rcases Table.WF.findKey_spec W' k' with ⟨hf', _⟩ | ⟨i', b', p', hf', hi', hsl', hk2⟩
        · exact hf'
        · exfalso
          obtain ⟨v, _, hlook⟩ := R'.of_key (Table.mem_ents.mpr ⟨i', b', hi', hsl'⟩) hk2
          rw [FMap.lookup_erase, if_neg (by simpa using hne), R.none_of hno] at hlook
          cases hlook
      · have : findIter hash h t k' = .ok (some i) := hf
        rw [this]
        exact hfind i b p k' hi hsl hk' hne

example : ∀ n, TOp.rehashN n ∉ ([.assign 1 10, .erase 5, .assign 2 3] : List (TOp Nat Nat)) := by simp

/-- the hypothesis on the number of buckets holds of an ordinary history -/
example : ∃ h t rs, runOps (fun k : Nat => UInt32.ofNat k) 0 Heap.empty (Table.new 8) [.assign 1 10, .assign 18 3, .erase 1] =
    .ok (h, t, rs) ∧ t.nb ≤ 536870911 ∧ t.nt = 1 := ⟨_, _, _, rfl, by decide, rfl⟩

/-- the keys 1, ..., 7 and 9 in a table of 9 buckets -/
def ninePlaces : List (TOp Nat Nat) :=
  [.insert 1, .insert 2, .insert 3, .insert 4, .insert 5, .insert 6, .insert 7, .insert 9, .rehashN 9]

/-- C79 is false of the code once `rehash(n)` was used: with the keys 1, ..., 7, 9 in 9 buckets, removing 1 makes the table grow, and an
iterator to the key 9 then designates a bucket without entry. -/
theorem C79_rehash_false : ∃ h t rs h' t', runOps (fun k : Nat => UInt32.ofNat k) 0 Heap.empty (Table.new 8) ninePlaces = .ok (h, t, rs) ∧
    findIter (fun k : Nat => UInt32.ofNat k) h t 9 = .ok (some 0) ∧ getEntry t (some 0) = .ok 7 ∧
    erase (fun k : Nat => UInt32.ofNat k) h t 1 = .ok (h', t', true) ∧
    getEntry t' (some 0) = .ub .outOfBounds ∧ findIter (fun k : Nat => UInt32.ofNat k) h' t' 9 = .ok (some 9) :=
  ⟨_, _, _, _, _, rfl, rfl, rfl, rfl, rfl, rfl⟩

/-- C80, what holds: after any history without `rehash(n)` that leaves at most 536870911 buckets, walking over the table with an iterator
and removing the entries that satisfy `p` on the way - incrementing before or after the removal - visits every binding exactly once, in
the order of an iteration without removals, and leaves exactly the bindings that do not satisfy `p`. Missing: histories with `rehash(n)` -
false, see below - and larger tables. -/
theorem C80_sweep_partial (hash : K → UInt32) (dflt : V) (size : Nat) (ops : List (TOp K V)) (p : K → V → Bool) (late : Bool)
    (hs : size ≤ 1431524664) (hp : TPres dflt [] ops) (hr : ∀ n, TOp.rehashN n ∉ ops) :
    ∃ h t rs, runOps hash dflt Heap.empty (Table.new size) ops = .ok (h, t, rs) ∧ (t.nb ≤ 536870911 →
      ∃ h' t' vs es, sweep hash p late h t = .ok (h', t', vs) ∧ visit t = .ok es ∧
        vs.map (fun kv => some ⟨kv.1, kv.2⟩) = es.map h.cells ∧ vs.Perm (truns dflt [] ops).1 ∧
        (∀ k, lookup hash h' t' k = .ok (FMap.lookup ((truns dflt [] ops).1.filter fun kv => !p kv.1 kv.2) k)) ∧
        t'.ne = ((truns dflt [] ops).1.filter fun kv => !p kv.1 kv.2).length) := by
  obtain ⟨h, t, h1, R, F, hl, _, _⟩ := runOps_sim (dflt := dflt) ops _ _ _ (new_rel hash hs) empty_fresh (by simp) hp
  have L := runOps_load (dflt := dflt) ops _ _ _ (new_rel (V := V) hash hs) empty_fresh (by simp) hp (noRehashN hr) (new_load hs) _ _ _ h1
  generalize (truns dflt [] ops).1 = m at *
  refine ⟨h, t, _, h1, fun hb => ?_⟩
  obtain ⟨h', t', vs, m', e1, R', e2, e3, e4⟩ := sweep_spec R F hl L hb p late
  refine ⟨h', t', vs, t.entries, e1, visit_spec R.good, e2, e3, ?_, ?_⟩
  · intro k
    rw [lookup_sim R' k]
    congr 1
    have hf := R'.functional
    have hf2 : FMap.Functional (m.filter fun kv => !p kv.1 kv.2) :=
      List.Nodup.sublist (List.Sublist.map _ List.filter_sublist) R.functional
    cases hq : FMap.lookup (m.filter fun kv => !p kv.1 kv.2) k with
    | none =>
      rw [FMap.lookup_none_iff] at hq ⊢
      exact fun v hv => hq v (e4.mem_iff.mp hv)
    | some v => exact FMap.lookup_of_mem hf (e4.mem_iff.mpr (FMap.mem_of_lookup hq))
  · rw [R'.ne_eq, e4.length_eq]

/-- a walk that removes: of the keys 1, 18, 35, 2 (in this order in 17 buckets) the even ones -/
example : ∃ h t rs h' t', runOps (fun k : Nat => UInt32.ofNat k) 0 Heap.empty (Table.new 8)
      [.assign 1 10, .assign 18 3, .assign 35 4, .assign 2 7] = .ok (h, t, rs) ∧
    sweep (fun k : Nat => UInt32.ofNat k) (fun k _ => k % 2 == 0) true h t = .ok (h', t', [(1, 10), (18, 3), (35, 4), (2, 7)]) ∧
    t'.ne = 2 := ⟨_, _, _, _, _, rfl, rfl, rfl⟩

/-- C80 is false of the code once `rehash(n)` was used: removing the key 1 on the way from the keys 1, ..., 7, 9 in 9 buckets, the key 9
is visited twice. -/
theorem C80_rehash_false : ∃ h t rs h' t', runOps (fun k : Nat => UInt32.ofNat k) 0 Heap.empty (Table.new 8) ninePlaces = .ok (h, t, rs) ∧
    sweep (fun k : Nat => UInt32.ofNat k) (fun k _ => k == 1) true h t =
      .ok (h', t', [(9, 0), (1, 0), (2, 0), (3, 0), (4, 0), (5, 0), (6, 0), (7, 0), (9, 0)]) :=
  ⟨_, _, _, _, _, rfl, rfl⟩

end Eni.Props
