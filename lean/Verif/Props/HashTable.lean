import Verif.Proofs.HashCount
import Verif.Proofs.HashWorld
/-!
# Properties C01-C10, C15: `HashTable`

`runOps hash dflt Heap.empty (Table.new size) ops` is the life of one table constructed with `size`: any history `ops`.
`truns dflt [] ops` is what the same history does to a finite map and what it should report (Spec/TableSpec).
-/
namespace Eni.Props
open Spec HashTable
variable {K V : Type} [DecidableEq K]

/-! The examples below the theorems use these: a hash function with collisions in small tables, a history with growth, overwriting, erasing,
tombstones and an explicit rehash, and a program with copies, moves and destruction. -/

def sampleHash (k : Nat) : UInt32 := UInt32.ofNat k

def sampleOps : List (TOp Nat Nat) :=
  [.assign 1 10, .assign 18 20, .assign 35 30, .erase 18, .assign 1 11, .insert 52, .find 35, .rehash, .rehashN 40, .find 18]

theorem sampleOps_pres : TPres 0 ([] : FMap Nat Nat) sampleOps := by
  simp [sampleOps, TPres, TPre, tstep, FMap.lookup, FMap.set, FMap.erase]

theorem sampleOps_length : (truns 0 ([] : FMap Nat Nat) sampleOps).1.length = 3 := by decide

def sampleProg : List (Stmt Nat Nat) :=
  [.new 0 8, .assign 0 1 1, .copyNew 1 0, .assign 1 2 2, .erase 0 1, .moveNew 2 1, .copyAssign 1 2, .destroy 0, .clear 1,
   .moveAssign 1 2, .destroy 1, .destroy 2]

theorem sampleProg_pres : MPres 0 (fun _ => none) sampleProg := by
  simp [sampleProg, MPres, MPre, mstep, MWorld.put, FMap.set, FMap.erase]

theorem sampleProg_end : ∀ i, mrun 0 (fun _ => none) sampleProg i = none := by
  intro i
  match i with
  | 0 => rfl
  | 1 => rfl
  | 2 => rfl
  | i + 3 => simp [sampleProg, mrun, mstep, MWorld.put]

/-- C01. Every history gives exactly the reports of a finite map, and afterwards every lookup and the number of entries
agree with that map. The hash function is arbitrary. -/
theorem C01_finite_map (hash : K → UInt32) (dflt : V) (size : Nat) (ops : List (TOp K V))
    (hs : size ≤ 1431524664) (hp : TPres dflt [] ops) :
    ∃ h t, runOps hash dflt Heap.empty (Table.new size) ops = .ok (h, t, (truns dflt [] ops).2) ∧
      (∀ k, lookup hash h t k = .ok ((truns dflt [] ops).1.lookup k)) ∧
      t.ne = (truns dflt [] ops).1.length ∧ (truns dflt [] ops).1.Functional := by
  obtain ⟨h, t, h1, R, _, _, _, _⟩ := runOps_sim (dflt := dflt) ops _ _ _ (new_rel hash hs) empty_fresh (by simp) hp
  exact ⟨h, t, h1, fun k => lookup_sim R k, R.ne_eq, R.functional⟩

example := C01_finite_map sampleHash 0 8 sampleOps (by decide) sampleOps_pres

theorem length_insertNew_le (dflt : V) (m : FMap K V) (op : TOp K V) : (tstep dflt m op).1.length ≤ m.length + 1 := by
  cases op with
  | insert k => simp only [tstep]; split <;> simp
  | assign k v =>
    have := length_erase_le m k
    simp only [tstep, FMap.set, List.length_cons]; omega
  | erase k =>
    have := length_erase_le m k
    simp only [tstep]; omega
  | _ => simp [tstep]

/-- C01, the size limits made explicit: a history of at most 1073643498 (about 2^30) operations without `rehash(n)` always meets them. -/
theorem C01_limits (dflt : V) (ops : List (TOp K V)) (hl : ops.length ≤ 1073643498) (hr : ∀ n, TOp.rehashN n ∉ ops) :
    TPres dflt ([] : FMap K V) ops := by
  have : ∀ (ops : List (TOp K V)) (m : FMap K V), m.length + ops.length ≤ 1073643498 → (∀ n, TOp.rehashN n ∉ ops) →
      TPres dflt m ops := by
    intro ops
    induction ops with
    | nil => intro m _ _; trivial
    | cons op ops ih =>
      intro m hm hr
      simp only [List.length_cons] at hm
      have hle := length_insertNew_le dflt m op
      refine ⟨?_, ih _ (by omega) (fun n hn => hr n (List.mem_cons_of_mem _ hn))⟩
      cases op with
      | insert k => show m.length < 1073643498; omega
      | assign k v => show m.length < 1073643498; omega
      | rehashN n => exact absurd List.mem_cons_self (hr n)
      | _ => trivial
  exact this ops [] (by simpa using hl) hr

example : TPres 0 ([] : FMap Nat Nat) [.assign 1 10, .clear, .assign 2 3] := C01_limits 0 _ (by simp) (by simp)

/-- C02. After any history, every further operation within the limits returns normally: it neither loops for ever nor
leaves the bucket array. `find` and `erase` need no limit at all. -/
theorem C02_always_returns (hash : K → UInt32) (dflt : V) (size : Nat) (ops : List (TOp K V)) (op : TOp K V)
    (hs : size ≤ 1431524664) (hp : TPres dflt [] ops) (hop : TPre (truns dflt [] ops).1 op) :
    ∃ h t rs, runOps hash dflt Heap.empty (Table.new size) ops = .ok (h, t, rs) ∧ ∃ r, step hash dflt h t op = .ok r := by
  obtain ⟨h, t, h1, R, F, hl, _, _⟩ := runOps_sim (dflt := dflt) ops _ _ _ (new_rel hash hs) empty_fresh (by simp) hp
  obtain ⟨h', t', h2, _⟩ := step_sim (dflt := dflt) R F hl op hop
  exact ⟨h, t, _, h1, _, h2⟩

example := C02_always_returns sampleHash 0 8 sampleOps (.insert 7) (by decide) sampleOps_pres (by simp [TPre, sampleOps_length])

/-- C02, meaning of the outcome `diverge` for `findKey`: if the probe does not answer within `nb + 1` iterations then no
number of iterations suffices. -/
theorem C02_find_bound {E : Type} (keyOf : E → Option K) (bs : List (Bucket E)) (h : UInt32) (k : K) (s : Nat)
    (pos : 0 < bs.length) (hd : Table.findLoop keyOf bs bs.length h k (bs.length + 1) (s % bs.length) = .diverge) (fuel : Nat) :
    Table.findLoop keyOf bs bs.length h k fuel (s % bs.length) = .diverge :=
  Table.findLoop_diverge_all pos hd fuel

/-- a full table: the search for another key with the same hash value does not return -/
example := C02_find_bound (fun _ : Nat => some 5) [⟨1, .full 0⟩, ⟨1, .tomb⟩] 1 6 0 (by decide) rfl 1000

/-- C02, the same for `lookupBucketFor`. -/
theorem C02_insert_bound {E : Type} (keyOf : E → Option K) (bs : List (Bucket E)) (h : UInt32) (k : K) (s : Nat)
    (live : ∀ b ∈ bs, ∀ e, b.slot = .full e → ∃ k, keyOf e = some k) (pos : 0 < bs.length)
    (hd : Table.lookupLoop keyOf bs bs.length h k (bs.length + 1) (s % bs.length) none = .diverge) (fuel : Nat) :
    Table.lookupLoop keyOf bs bs.length h k fuel (s % bs.length) none = .diverge := by
  refine lookupLoop_diverge_all ?_ rfl pos hd fuel
  intro e he
  obtain ⟨i, b, hi, hs⟩ := Table.mem_ents.mp he
  exact live b (List.mem_of_getElem? hi) e hs

example := C02_insert_bound (fun _ : Nat => some 5) [⟨1, .full 0⟩, ⟨1, .tomb⟩] 1 6 0 (by simp) (by decide) rfl 1000

/-- C02, the same for the search of a free bucket in `doRehash`. -/
theorem C02_rehash_bound {E : Type} (bs : List (Bucket E)) (s : Nat) (pos : 0 < bs.length)
    (hd : Table.placeLoop bs bs.length (bs.length + 1) (s % bs.length) = .diverge) (fuel : Nat) :
    Table.placeLoop bs bs.length fuel (s % bs.length) = .diverge := placeLoop_diverge_all rfl pos hd fuel

example := C02_rehash_bound [⟨1, .full 0⟩, ⟨1, .full 1⟩] 5 (by decide) rfl 1000

/-- C03. After any history, iterating from `begin()` to `end()` visits the bindings of the map, each exactly once and with its
current value; the number of steps is `numOfEntries()`. -/
theorem C03_iteration (hash : K → UInt32) (dflt : V) (size : Nat) (ops : List (TOp K V))
    (hs : size ≤ 1431524664) (hp : TPres dflt [] ops) :
    ∃ h t rs es, runOps hash dflt Heap.empty (Table.new size) ops = .ok (h, t, rs) ∧ visit t = .ok es ∧
      (es.map h.cells).Perm ((truns dflt [] ops).1.map fun kv => some ⟨kv.1, kv.2⟩) ∧ es.length = t.ne ∧ es.Nodup := by
  obtain ⟨h, t, h1, R, F, hl, _, _⟩ := runOps_sim (dflt := dflt) ops _ _ _ (new_rel hash hs) empty_fresh (by simp) hp
  exact ⟨h, t, _, _, h1, visit_spec R.good, R.abs, R.good.ne_eq.symm, R.nodup_addr⟩

example := C03_iteration sampleHash 0 8 sampleOps (by decide) sampleOps_pres

/-- C03. Advancing or dereferencing `end()` throws, for every table whatsoever. -/
theorem C03_end_throws {E : Type} (t : Table E) :
    advance t end_ = .throw .invalidIteratorEmpty ∧ getEntry t end_ = .throw .invalidIteratorEmpty := ⟨rfl, rfl⟩

/-- an operation that neither erases `k` nor clears the table -/
def Keeps (k : K) : TOp K V → Prop
  | .erase k' => k' ≠ k
  | .clear => False
  | _ => True

/-- C04. The entry pointer `p` returned by `insert(k)` after any history `ops1` is still the entry of `k` after any history `ops2`
that does not erase `k` or clear the table (growth and rehashing included): `find(k)` yields the same pointer, and the
object behind it holds `k` and the value of the map. -/
theorem C04_pointer_stability (hash : K → UInt32) (dflt : V) (size : Nat) (ops1 ops2 : List (TOp K V)) (k : K)
    (hs : size ≤ 1431524664) (hp1 : TPres dflt [] ops1) (hpk : (truns dflt [] ops1).1.length < 1073643498)
    (hp2 : TPres dflt ((truns dflt [] ops1).1.insertNew k dflt) ops2) (hk : ∀ op ∈ ops2, Keeps k op) :
    ∃ h1 t1 rs1 h2 t2 p ex h3 t3 rs2 v,
      runOps hash dflt Heap.empty (Table.new size) ops1 = .ok (h1, t1, rs1) ∧
      insert hash dflt h1 t1 k = .ok (h2, t2, p, ex) ∧
      runOps hash dflt h2 t2 ops2 = .ok (h3, t3, rs2) ∧
      find hash h3 t3 k = .ok (some p) ∧ h3.cells p = some ⟨k, v⟩ ∧
      (truns dflt ((truns dflt [] ops1).1.insertNew k dflt) ops2).1.lookup k = some v := by
  obtain ⟨h1, t1, e1, R1, F1, l1, _, _⟩ := runOps_sim (dflt := dflt) ops1 _ _ _ (new_rel hash hs) empty_fresh (by simp) hp1
  generalize hm : (truns dflt [] ops1).1 = m at *
  have hins : ∃ h2 t2 p ex, insert hash dflt h1 t1 k = .ok (h2, t2, p, ex) ∧ TRel hash h2 t2 (m.insertNew k dflt) ∧ h2.Fresh ∧
      (m.insertNew k dflt).length ≤ 1073643498 ∧ p ∈ t2.entries ∧ h2.keyOf p = some k := by
    rcases insert_sim (dflt := dflt) R1 F1 hpk k with ⟨p, v, e2, hpe, hc, hl⟩ | ⟨hl, t2, e2, R2, hi, hperm⟩
    · refine ⟨h1, t1, p, true, e2, ?_, F1, ?_, hpe, by simp [Heap.keyOf, hc]⟩
      · simpa [FMap.insertNew, hl] using R1
      · simpa [FMap.insertNew, hl] using l1
    · refine ⟨_, t2, h1.next, false, e2, ?_, alloc_fresh h1 F1 k dflt, ?_, hperm.mem_iff.mpr List.mem_cons_self, by simp [Heap.keyOf, Heap.alloc]⟩
      · simpa [FMap.insertNew, hl] using R2
      · simp [FMap.insertNew, hl]; omega
  obtain ⟨h2, t2, p, ex, e2, R2, F2, l2, hpe, hkp⟩ := hins
  obtain ⟨h3, t3, e3, R3, _, _, _, K3⟩ := runOps_sim (dflt := dflt) ops2 _ _ _ R2 F2 l2 hp2
  have hsp : ∀ op ∈ ops2, Spares k op := by
    intro op hop
    have := hk op hop
    cases op <;> exact this
  obtain ⟨g1, g2⟩ := K3 k p hsp hpe hkp
  obtain ⟨v, hv, hlv⟩ := R3.of_key g1 g2
  refine ⟨h1, t1, _, h2, t2, p, ex, h3, t3, _, v, e1, e2, e3, ?_, hv, hlv⟩
  rcases find_sim R3 k with ⟨f1, f2⟩ | ⟨q, w, f1, f2, f3, f4⟩
  · rw [hlv] at f2; cases f2
  · rw [f1]
    -- the entry of `k` is unique
    have hkq : h3.keyOf q = some k := by simp [Heap.keyOf, f3]
    have hnd := R3.good.nodup
    have : q = p := by
      have hinj : ∀ a ∈ t3.entries, ∀ b ∈ t3.entries, h3.keyOf a = h3.keyOf b → a = b := List.inj_on_of_nodup_map hnd
      exact hinj q f2 p g1 (by rw [hkq, g2])
    rw [this]

example := C04_pointer_stability sampleHash 0 8 sampleOps [.assign 2 10, .erase 3, .rehash, .assign 1 5] 1 (by decide) sampleOps_pres
  (by simp [sampleOps_length]) (by simp [sampleOps, truns, TPres, TPre, tstep, FMap.lookup, FMap.set, FMap.erase, FMap.insertNew]) (by simp [Keeps])

/-- C05. After any history without `rehash(n)`: either the table has no bucket array and no entries, or at most 3/4 of the buckets
are entries and at least 1/8 of them are empty. -/
theorem C05_load (hash : K → UInt32) (dflt : V) (size : Nat) (ops : List (TOp K V))
    (hs : size ≤ 1431524664) (hp : TPres dflt [] ops) (hr : ∀ n, TOp.rehashN n ∉ ops) :
    ∃ h t rs, runOps hash dflt Heap.empty (Table.new size) ops = .ok (h, t, rs) ∧
      ((t.nb = 0 ∧ t.ne = 0) ∨ (0 < t.nb ∧ 4 * t.ne ≤ 3 * t.nb ∧ t.nb ≤ 8 * t.empties)) := by
  obtain ⟨h, t, h1, R, F, hl, _, _⟩ := runOps_sim (dflt := dflt) ops _ _ _ (new_rel hash hs) empty_fresh (by simp) hp
  refine ⟨h, t, _, h1, ?_⟩
  have hno : ∀ op ∈ ops, NoRehashN op := by
    intro op hop
    cases op with
    | rehashN n => exact absurd hop (hr n)
    | _ => trivial
  have L := runOps_load ops _ _ _ (new_rel hash hs) empty_fresh (by simp) hp hno (new_load hs) _ _ _ h1
  rcases R.good with rfl | W
  · left; exact ⟨rfl, rfl⟩
  · right
    have hroom := W.room
    rcases L with rfl | ⟨_, l2, l3⟩
    · exact absurd W.init (by simp [Table.null])
    · refine ⟨by omega, l2, ?_⟩
      have hc := Table.count_total t.buckets
      have h2 := W.ne_eq
      have h3 := W.nt_eq
      have h4 := W.len
      rw [Table.entries_eq] at h2
      rw [Table.tombs_eq] at h3
      rw [Table.empties_eq]
      omega

example := C05_load sampleHash 0 8 [.assign 1 10, .clear, .assign 2 3] (by decide) (C01_limits 0 _ (by simp) (by simp)) (by simp)

/-- C05. The counters are exact after any history (also with `rehash(n)`): `numOfEntries()` is the number of entry buckets and of
bound keys, `numOfTombstones()` the number of tombstone buckets, `numOfBuckets()` the length of the array. -/
theorem C05_counters (hash : K → UInt32) (dflt : V) (size : Nat) (ops : List (TOp K V))
    (hs : size ≤ 1431524664) (hp : TPres dflt [] ops) :
    ∃ h t rs, runOps hash dflt Heap.empty (Table.new size) ops = .ok (h, t, rs) ∧
      t.ne = t.entries.length ∧ t.ne = (truns dflt [] ops).1.length ∧ t.nt = t.tombs ∧ t.nb = t.buckets.length := by
  obtain ⟨h, t, h1, R, F, hl, _, _⟩ := runOps_sim (dflt := dflt) ops _ _ _ (new_rel hash hs) empty_fresh (by simp) hp
  refine ⟨h, t, _, h1, R.good.ne_eq, R.ne_eq, ?_, (good_len R.good).symm⟩
  rcases R.good with rfl | W
  · rfl
  · exact W.nt_eq

example := C05_counters sampleHash 0 8 sampleOps (by decide) sampleOps_pres

/-- C06. A copy of a table that owns buckets has the same bindings. Any later history on the copy behaves like a finite map and leaves
every lookup in the original unchanged, and the other way round. -/
theorem C06_copy_independent (hash : K → UInt32) (dflt : V) (size : Nat) (ops : List (TOp K V))
    (hs : size ≤ 1431524664) (hp : TPres dflt [] ops) :
    ∃ h t rs, runOps hash dflt Heap.empty (Table.new size) ops = .ok (h, t, rs) ∧ (t.init = true →
      ∃ h' t', copy h t = .ok (h', t') ∧ (∀ k, lookup hash h' t' k = .ok ((truns dflt [] ops).1.lookup k)) ∧
        (∀ k, lookup hash h' t k = .ok ((truns dflt [] ops).1.lookup k)) ∧
        (∀ ops2, TPres dflt (truns dflt [] ops).1 ops2 →
          (∃ h2 t2, runOps hash dflt h' t' ops2 = .ok (h2, t2, (truns dflt (truns dflt [] ops).1 ops2).2) ∧
            ∀ k, lookup hash h2 t k = .ok ((truns dflt [] ops).1.lookup k)) ∧
          (∃ h2 t2, runOps hash dflt h' t ops2 = .ok (h2, t2, (truns dflt (truns dflt [] ops).1 ops2).2) ∧
            ∀ k, lookup hash h2 t' k = .ok ((truns dflt [] ops).1.lookup k)))) := by
  obtain ⟨h, t, h1, R, F, hl, _, _⟩ := runOps_sim (dflt := dflt) ops _ _ _ (new_rel hash hs) empty_fresh (by simp) hp
  refine ⟨h, t, _, h1, fun hi => ?_⟩
  obtain ⟨h', t', e1, R', Rt, _, hn, F', hf, hent, hown⟩ := copy_sim R F hi
  refine ⟨h', t', e1, fun k => lookup_sim R' k, fun k => lookup_sim Rt k, fun ops2 hp2 => ⟨?_, ?_⟩⟩
  · obtain ⟨h2, t2, e2, R2, _, _, S, _⟩ := runOps_sim (dflt := dflt) ops2 _ _ _ R' F' hl hp2
    refine ⟨h2, t2, e2, fun k => lookup_sim (Rt.congr ?_) k⟩
    intro p hpt
    have := R.lt_next F hpt
    refine S.frame p (by omega) ?_
    intro hpt'
    have := hent p hpt'
    omega
  · obtain ⟨h2, t2, e2, R2, _, _, S, _⟩ := runOps_sim (dflt := dflt) ops2 _ _ _ Rt F' hl hp2
    refine ⟨h2, t2, e2, fun k => lookup_sim (R'.congr ?_) k⟩
    intro p hpt
    have h3 := hent p hpt
    refine S.frame p (by omega) ?_
    intro hpt'
    have := R.lt_next F hpt'
    omega

example := C06_copy_independent sampleHash 0 8 sampleOps (by decide) sampleOps_pres

/-- C06, C10 for whole programs over any number of table variables (construction, copies, moves, destruction in any order). A program
that follows the rules `MPre` runs without undefined behaviour, and at the end every live table variable holds exactly the map that the
program computes with map variables of value semantics. -/
theorem C06_programs (hash : K → UInt32) (dflt : V) (ss : List (Stmt K V)) (hp : MPres dflt (fun _ => none) ss) :
    ∃ w, World.run hash dflt World.start ss = .ok w ∧
      ∀ i, (w.tabs i = none ∧ mrun dflt (fun _ => none) ss i = none) ∨
        ∃ t x, w.tabs i = some t ∧ mrun dflt (fun _ => none) ss i = some x ∧ ∀ k, lookup hash w.heap t k = .ok (x.map.lookup k) := by
  obtain ⟨w, L, h1, R, hL, _⟩ := World.run_sim (dflt := dflt) ss _ _ _ (World.start_rel (hash := hash)) hp
  refine ⟨w, h1, fun i => ?_⟩
  rcases R.vars i with h | ⟨t, x, h2, h3, h4⟩
  · exact Or.inl h
  · exact Or.inr ⟨t, x, h2, h3, fun k => lookup_sim h4.rel k⟩

example := C06_programs sampleHash 0 sampleProg sampleProg_pres

/-- C07, disproof. For every hash function and every key: copying a table that was constructed with size 0 (equally: cleared or moved
from, all of which are `Table.null`) gives a table on which find, insert and erase compute `% 0`. -/
theorem C07_copy_of_null_false (hash : K → UInt32) (dflt : V) (h : Heap K V) :
    Table.new 0 = (Table.null : Table Nat) ∧ (move (Table.new 8 : Table Nat)).2 = Table.null ∧
    ∃ t', copy h (Table.null : Table Nat) = .ok (h, t') ∧ ∀ k, lookup hash h t' k = .ub .divZero ∧
      insert hash dflt h t' k = .ub .divZero ∧ erase hash h t' k = .ub .divZero := by
  refine ⟨rfl, rfl, ⟨true, [], 0, 0, 0⟩, rfl, fun k => ⟨rfl, rfl, rfl⟩⟩

/-- C07, disproof for a non-empty history: after inserting anything and clearing, copying breaks the copy. -/
theorem C07_copy_after_clear_false (hash : K → UInt32) (dflt : V) (size : Nat) (ops : List (TOp K V))
    (hs : size ≤ 1431524664) (hp : TPres dflt [] ops) (hne : (truns dflt [] ops).1 ≠ []) :
    ∃ h t rs t', runOps hash dflt Heap.empty (Table.new size) (ops ++ [.clear]) = .ok (h, t, rs) ∧ copy h t = .ok (h, t') ∧
      ∀ k, lookup hash h t' k = .ub .divZero := by
  obtain ⟨h, t, h1, R, F, hl, _, _⟩ := runOps_sim (dflt := dflt) ops _ _ _ (new_rel hash hs) empty_fresh (by simp) hp
  obtain ⟨h', t', e1, e2, e3, _⟩ := clear_sim R F
  have hn : t' = Table.null := by
    rcases e2.good with h | W
    · exact h
    · exfalso
      have := W.init
      rw [e3] at this
      simp at this
      exact hne this.2
  have happ : ∀ (xs : List (TOp K V)) (h0 : Heap K V) (t0 : Table Nat) (h1 : Heap K V) (t1 : Table Nat) (rs),
      runOps hash dflt h0 t0 xs = .ok (h1, t1, rs) → ∀ ys, runOps hash dflt h0 t0 (xs ++ ys) =
        (runOps hash dflt h1 t1 ys >>= fun r => .ok (r.1, r.2.1, rs ++ r.2.2)) := by
    intro xs
    induction xs with
    | nil =>
      intro h0 t0 h1 t1 rs e ys
      simp [runOps] at e
      obtain ⟨rfl, rfl, rfl⟩ := e
      simp
      cases runOps hash dflt h0 t0 ys <;> rfl
    | cons x xs ih =>
      intro h0 t0 h1 t1 rs e ys
      simp only [runOps] at e
      rw [Res.bind_eq_ok] at e
      obtain ⟨⟨ha, ta, ra⟩, ea, e⟩ := e
      rw [Res.bind_eq_ok] at e
      obtain ⟨⟨hb, tb, rb⟩, eb, e⟩ := e
      simp at e
      obtain ⟨rfl, rfl, rfl⟩ := e
      simp only [List.cons_append, runOps, ea, Res.ok_bind, ih _ _ _ _ _ eb ys]
      cases runOps hash dflt hb tb ys <;> rfl
  refine ⟨h', t', (truns dflt [] ops).2 ++ [.done], ⟨true, [], 0, 0, 0⟩, ?_, ?_, ?_⟩
  · rw [happ _ _ _ _ _ _ h1]
    simp [runOps, step, e1]
  · rw [hn]; rfl
  · intro k; rfl

example := C07_copy_after_clear_false sampleHash 0 8 sampleOps (by decide) sampleOps_pres (by decide)

/-- C07, what holds: a table that owns a bucket array can be copied, and every operation within the limits on the copy is defined.
Missing: tables without array (constructed with size 0 and never inserted into, cleared, moved from). -/
theorem C07_copy_usable_partial (hash : K → UInt32) (dflt : V) (size : Nat) (ops : List (TOp K V)) (op : TOp K V)
    (hs : size ≤ 1431524664) (hp : TPres dflt [] ops) (hop : TPre (truns dflt [] ops).1 op) :
    ∃ h t rs, runOps hash dflt Heap.empty (Table.new size) ops = .ok (h, t, rs) ∧ (t.init = true →
      ∃ h' t' r, copy h t = .ok (h', t') ∧ step hash dflt h' t' op = .ok r) := by
  obtain ⟨h, t, h1, R, F, hl, _, _⟩ := runOps_sim (dflt := dflt) ops _ _ _ (new_rel hash hs) empty_fresh (by simp) hp
  refine ⟨h, t, _, h1, fun hi => ?_⟩
  obtain ⟨h', t', e1, R', Rt, _, hn, F', hf, hent, hown⟩ := copy_sim R F hi
  obtain ⟨h2, t2, e2, _⟩ := step_sim (dflt := dflt) R' F' hl op hop
  exact ⟨h', t', _, e1, e2⟩

example := C07_copy_usable_partial sampleHash 0 8 sampleOps (.insert 7) (by decide) sampleOps_pres (by simp [TPre, sampleOps_length])

/-- C08, disproof for every table: after any history, `t = t` leaves a table on which every lookup computes `% 0`, and (C10) none of the
old entries is released. -/
theorem C08_self_assignment_false (hash : K → UInt32) (dflt : V) (size : Nat) (ops : List (TOp K V))
    (hs : size ≤ 1431524664) (hp : TPres dflt [] ops) :
    ∃ h t rs t', runOps hash dflt Heap.empty (Table.new size) ops = .ok (h, t, rs) ∧ selfAssign h t = .ok (h, t') ∧
      t'.entries = [] ∧ ∀ k, lookup hash h t' k = .ub .divZero := by
  obtain ⟨h, t, h1, R, F, hl, _, _⟩ := runOps_sim (dflt := dflt) ops _ _ _ (new_rel hash hs) empty_fresh (by simp) hp
  refine ⟨h, t, _, ⟨true, [], 0, 0, 0⟩, h1, ?_, rfl, fun k => rfl⟩
  unfold selfAssign
  rcases R.good with rfl | W
  · rfl
  · simp [W.init]; rfl

example := C08_self_assignment_false sampleHash 0 8 sampleOps (by decide) sampleOps_pres

/-- C09, what `count` returns after any history: for a bound key the number of bound keys with the same 32-bit hash value; for an
unbound key 0 if its hash value is not 0, and a null dereference if it is 0. (The table must own an array.) -/
theorem C09_count (hash : K → UInt32) (dflt : V) (size : Nat) (ops : List (TOp K V))
    (hs : size ≤ 1431524664) (hp : TPres dflt [] ops) :
    ∃ h t rs, runOps hash dflt Heap.empty (Table.new size) ops = .ok (h, t, rs) ∧
      (t.init = false → ∀ k, count hash h.keyOf t k = .ub .divZero) ∧
      (t.init = true → ∀ k,
        ((truns dflt [] ops).1.lookup k ≠ none →
          count hash h.keyOf t k = .ok ((truns dflt [] ops).1.countP fun kv => decide (hash kv.1 = hash k))) ∧
        ((truns dflt [] ops).1.lookup k = none → hash k ≠ 0 → count hash h.keyOf t k = .ok 0) ∧
        ((truns dflt [] ops).1.lookup k = none → hash k = 0 → count hash h.keyOf t k = .ub .nullDeref)) := by
  obtain ⟨h, t, h1, R, F, hl, _, _⟩ := runOps_sim (dflt := dflt) ops _ _ _ (new_rel hash hs) empty_fresh (by simp) hp
  have z := runOps_ez ops _ _ (new_ez size) _ _ _ h1
  refine ⟨h, t, _, h1, ?_, ?_⟩
  · intro hi k
    rcases R.good with rfl | W
    · rfl
    · rw [W.init] at hi; cases hi
  · intro hi k
    have W : Table.WF hash h.keyOf t := by
      rcases R.good with rfl | W
      · cases hi
      · exact W
    generalize (truns dflt [] ops).1 = m at *
    have hno : m.lookup k = none → ∀ e ∈ t.entries, h.keyOf e ≠ some k := by
      intro hlk e he hke
      obtain ⟨v, _, hl⟩ := R.of_key he hke
      rw [hlk] at hl; cases hl
    refine ⟨?_, fun hlk hh => count_absent W z (hno hlk) hh, fun hlk hh => count_absent_zero W z (hno hlk) hh⟩
    intro hlk
    have hex : ∃ e ∈ t.entries, h.keyOf e = some k := by
      rcases find_sim R k with ⟨_, h2⟩ | ⟨p, v, _, hpe, hc, _⟩
      · exact absurd h2 hlk
      · exact ⟨p, hpe, by simp [Heap.keyOf, hc]⟩
    obtain ⟨e, he, hke⟩ := hex
    rw [count_present W he hke]
    congr 1
    -- count over the entries = count over the bindings
    have h5 : t.entries.countP (fun e => match h.keyOf e with | some k' => decide (hash k' = hash k) | none => false) =
        (t.entries.map h.cells).countP (fun c => match c with | some c => decide (hash c.key = hash k) | none => false) := by
      rw [List.countP_map]
      congr 1
      funext e
      simp only [Function.comp, Heap.keyOf]
      cases h.cells e <;> rfl
    refine Eq.trans h5 ?_
    rw [R.abs.countP_eq, List.countP_map]
    rfl

example := C09_count sampleHash 0 8 sampleOps (by decide) sampleOps_pres

/-- C09, what holds: if the bound keys have pairwise different hash values, then `count(k)` is 1 for a bound key and 0 for an unbound
key with nonzero hash value. Missing: keys whose full hash values collide (counted together) and unbound keys with hash value 0. -/
theorem C09_count_partial (hash : K → UInt32) (dflt : V) (size : Nat) (ops : List (TOp K V))
    (hs : size ≤ 1431524664) (hp : TPres dflt [] ops)
    (hinj : ((truns dflt [] ops).1.map fun kv => hash kv.1).Nodup) :
    ∃ h t rs, runOps hash dflt Heap.empty (Table.new size) ops = .ok (h, t, rs) ∧ (t.init = true → ∀ k,
      ((truns dflt [] ops).1.lookup k ≠ none → count hash h.keyOf t k = .ok 1) ∧
      ((truns dflt [] ops).1.lookup k = none → hash k ≠ 0 → count hash h.keyOf t k = .ok 0)) := by
  obtain ⟨h, t, rs, h1, _, h2⟩ := C09_count hash dflt size ops hs hp
  refine ⟨h, t, rs, h1, fun hi k => ⟨fun hlk => ?_, (h2 hi k).2.1⟩⟩
  rw [(h2 hi k).1 hlk]
  congr 1
  generalize (truns dflt [] ops).1 = m at *
  cases hl : m.lookup k with
  | none => exact absurd hl hlk
  | some v =>
    have hmem := FMap.mem_of_lookup hl
    have h3 : (m.countP fun kv => decide (hash kv.1 = hash k)) = (m.map fun kv => hash kv.1).count (hash k) := by
      rw [List.count, List.countP_map]
      congr 1
    rw [h3]
    exact List.count_eq_one_of_mem hinj (List.mem_map.mpr ⟨_, hmem, rfl⟩)

example := C09_count_partial sampleHash 0 8 sampleOps (by decide) sampleOps_pres (by decide)

/-- C09, disproof: two keys with the same hash value make `count` return 2. -/
theorem C09_count_false :
    ∃ h t rs, runOps (fun _ : Nat => (7 : UInt32)) (0 : Nat) Heap.empty (Table.new 8) [.assign 1 10, .assign 2 20] = .ok (h, t, rs) ∧
      count (fun _ : Nat => (7 : UInt32)) h.keyOf t 1 = .ok 2 := ⟨_, _, _, rfl, rfl⟩

/-- C10. One table, any history, then destruction: no entry is released twice or used after its release, and at the end no entry is
allocated. -/
theorem C10_no_leak (hash : K → UInt32) (dflt : V) (size : Nat) (ops : List (TOp K V))
    (hs : size ≤ 1431524664) (hp : TPres dflt [] ops) :
    ∃ h t rs h', runOps hash dflt Heap.empty (Table.new size) ops = .ok (h, t, rs) ∧ destroy h t = .ok h' ∧
      ∀ p, h'.cells p = none := by
  obtain ⟨h, t, h1, R, F, hl, S, _⟩ := runOps_sim (dflt := dflt) ops _ _ _ (new_rel hash hs) empty_fresh (by simp) hp
  obtain ⟨h', t', e1, e2, e3, e4⟩ := clear_sim R F
  refine ⟨h, t, _, h', h1, by simp [destroy, e1], fun p => ?_⟩
  cases hc : h'.cells p with
  | none => rfl
  | some c =>
    exfalso
    have ht' : t'.entries = [] := by rw [← List.length_eq_zero_iff, ← e2.good.ne_eq, e2.ne_eq]; rfl
    rcases e4.exact p (by rw [hc]; simp) with h5 | ⟨h5, h6⟩
    · rw [ht'] at h5; cases h5
    · have hcp : h.cells p ≠ none := by rw [← e4.frame p h5 h6, hc]; simp
      rcases S.exact p hcp with h7 | ⟨h7, _⟩
      · exact h6 h7
      · simp [Heap.empty] at h7

example := C10_no_leak sampleHash 0 8 sampleOps (by decide) sampleOps_pres

/-- C10 for whole programs, exactly: nothing is released twice or used after release; the live entries are those of the live tables and as
many others as the assignments have overwritten bindings. No table knows the others, so nothing can release them any more. -/
theorem C10_programs (hash : K → UInt32) (dflt : V) (ss : List (Stmt K V)) (hp : MPres dflt (fun _ => none) ss) :
    ∃ w, ∃ lost : List Nat, World.run hash dflt World.start ss = .ok w ∧ lost.Nodup ∧ lost.length = forgotten dflt (fun _ => none) ss ∧
      (∀ p, w.heap.cells p ≠ none ↔ (∃ i t, w.tabs i = some t ∧ p ∈ t.entries) ∨ p ∈ lost) ∧
      (∀ i t, w.tabs i = some t → ∀ p ∈ t.entries, p ∉ lost) := by
  obtain ⟨w, L, h1, R, hL, _⟩ := World.run_sim (dflt := dflt) ss _ _ _ (World.start_rel (hash := hash)) hp
  refine ⟨w, L, h1, R.lostNodup, by simpa using hL, fun p => ⟨R.own p, ?_⟩, fun i t ht p hp hl => R.lostFree p hl i t ht hp⟩
  rintro (⟨i, t, ht, hp⟩ | hp)
  · refine R.old_live (i := i) (List.mem_append_left _ ?_)
    rw [World.old_some ht]; exact hp
  · exact R.lostLive p hp

example := C10_programs sampleHash 0 sampleProg sampleProg_pres

/-- C10 for whole programs: when all tables are destroyed, no entry is left exactly if no assignment has overwritten a binding. -/
theorem C10_programs_iff (hash : K → UInt32) (dflt : V) (ss : List (Stmt K V)) (hp : MPres dflt (fun _ => none) ss)
    (hd : ∀ i, mrun dflt (fun _ => none) ss i = none) :
    ∃ w, World.run hash dflt World.start ss = .ok w ∧ ((∀ p, w.heap.cells p = none) ↔ forgotten dflt (fun _ => none) ss = 0) := by
  obtain ⟨w, L, h1, R, hL, _⟩ := World.run_sim (dflt := dflt) ss _ _ _ (World.start_rel (hash := hash)) hp
  refine ⟨w, h1, fun h => ?_, fun h p => ?_⟩
  · have : L = [] := by
      cases L with
      | nil => rfl
      | cons p l => exact absurd (h p) (R.lostLive p (by simp))
    rw [this] at hL
    simpa using hL.symm
  · have : L = [] := List.length_eq_zero_iff.mp (by simpa [h] using hL)
    by_contra hc
    rcases R.own p hc with ⟨i, t, hi, _⟩ | hl
    · rw [R.get_none (hd i)] at hi; cases hi
    · rw [this] at hl; cases hl

example := C10_programs_iff sampleHash 0 sampleProg sampleProg_pres sampleProg_end

/-- C10 for whole programs: if no assignment overwrites a binding, every live entry belongs to a live table, and when all tables are
destroyed no entry is left. Missing: assignments that overwrite bindings - the code leaks there, see `C10_programs_iff`. -/
theorem C10_programs_partial (hash : K → UInt32) (dflt : V) (ss : List (Stmt K V)) (hp : MPres dflt (fun _ => none) ss)
    (h0 : forgotten dflt (fun _ => none) ss = 0) :
    ∃ w, World.run hash dflt World.start ss = .ok w ∧
      (∀ p, w.heap.cells p ≠ none → ∃ i t, w.tabs i = some t ∧ p ∈ t.entries) ∧
      ((∀ i, mrun dflt (fun _ => none) ss i = none) → ∀ p, w.heap.cells p = none) := by
  obtain ⟨w, L, h1, R, hL, _⟩ := World.run_sim (dflt := dflt) ss _ _ _ (World.start_rel (hash := hash)) hp
  have hnil : L = [] := List.length_eq_zero_iff.mp (by simpa [h0] using hL)
  have own : ∀ p, w.heap.cells p ≠ none → ∃ i t, w.tabs i = some t ∧ p ∈ t.entries := by
    intro p h
    rcases R.own p h with h | h
    · exact h
    · rw [hnil] at h; cases h
  refine ⟨w, h1, own, fun hall p => ?_⟩
  cases hc : w.heap.cells p with
  | none => rfl
  | some c =>
    obtain ⟨i, t, hi, _⟩ := own p (by rw [hc]; simp)
    rw [R.get_none (hall i)] at hi; cases hi

example := C10_programs_partial sampleHash 0 sampleProg sampleProg_pres
  (by simp [sampleProg, forgotten, forgets, MWorld.card, mstep, MWorld.put, FMap.set, FMap.erase])

/-- C10, disproof for assignment: two tables, one entry each, `t0 = t1`, both destroyed - one entry is never released. The same
with `t0 = std::move(t1)`. -/
theorem C10_assign_leaks_false :
    (∃ w, World.run (fun k : Nat => (UInt32.ofNat k)) (0 : Nat) World.start
      [.new 0 8, .assign 0 1 1, .new 1 8, .assign 1 2 2, .copyAssign 0 1, .destroy 0, .destroy 1] = .ok w ∧
      w.tabs 0 = none ∧ w.tabs 1 = none ∧ w.heap.cells 0 = some ⟨1, 1⟩) ∧
    (∃ w, World.run (fun k : Nat => (UInt32.ofNat k)) (0 : Nat) World.start
      [.new 0 8, .assign 0 1 1, .new 1 8, .assign 1 2 2, .moveAssign 0 1, .destroy 0, .destroy 1] = .ok w ∧
      w.tabs 0 = none ∧ w.tabs 1 = none ∧ w.heap.cells 0 = some ⟨1, 1⟩) :=
  ⟨⟨_, rfl, rfl, rfl, rfl⟩, ⟨_, rfl, rfl, rfl, rfl⟩⟩

/-- C15, disproof. After any history with `e` bound keys: `rehash(n)` with 0 < n < e never returns; `rehash(0)` computes `% 0` if e > 0
and otherwise returns a table on which every lookup computes `% 0`. -/
theorem C15_rehash_small_false (hash : K → UInt32) (dflt : V) (size : Nat) (ops : List (TOp K V))
    (hs : size ≤ 1431524664) (hp : TPres dflt [] ops) :
    ∃ h t rs, runOps hash dflt Heap.empty (Table.new size) ops = .ok (h, t, rs) ∧
      (∀ n, 0 < n → n < (truns dflt [] ops).1.length → rehashN t n = .diverge) ∧
      ((truns dflt [] ops).1 ≠ [] → rehashN t 0 = .ub .divZero) ∧
      ((truns dflt [] ops).1 = [] → ∃ t', rehashN t 0 = .ok t' ∧ ∀ k, lookup hash h t' k = .ub .divZero) := by
  obtain ⟨h, t, h1, R, F, hl, _, _⟩ := runOps_sim (dflt := dflt) ops _ _ _ (new_rel hash hs) empty_fresh (by simp) hp
  have hne := R.ne_eq
  refine ⟨h, t, _, h1, ?_, ?_, ?_⟩
  · intro n h0 hn
    unfold rehashN
    rw [w32_of_lt (by omega)]
    exact doRehash_diverge R.good h0 (by omega)
  · intro hm
    have : 0 < t.ne := by
      rw [hne]
      exact List.length_pos_iff.mpr hm
    exact doRehash_zero R.good this
  · intro hm
    refine ⟨⟨true, [], 0, 0, 0⟩, doRehash_zero_none R.good (by rw [hne, hm]; rfl), fun k => rfl⟩

example := C15_rehash_small_false sampleHash 0 8 sampleOps (by decide) sampleOps_pres

/-- C15, disproof for n equal to the number e > 0 of bound keys: `rehash(e)` returns, but afterwards `find` and `insert` of any unbound
key never return. -/
theorem C15_rehash_exact_false (hash : K → UInt32) (dflt : V) (size : Nat) (ops : List (TOp K V))
    (hs : size ≤ 1431524664) (hp : TPres dflt [] ops) (hne : (truns dflt [] ops).1 ≠ []) :
    ∃ h t rs t', runOps hash dflt Heap.empty (Table.new size) ops = .ok (h, t, rs) ∧
      rehashN t (truns dflt [] ops).1.length = .ok t' ∧
      ∀ k, (truns dflt [] ops).1.lookup k = none → lookup hash h t' k = .diverge ∧ insert hash dflt h t' k = .diverge := by
  obtain ⟨h, t, h1, R, F, hl, _, _⟩ := runOps_sim (dflt := dflt) ops _ _ _ (new_rel hash hs) empty_fresh (by simp) hp
  have hn := R.ne_eq
  have hpos : 0 < (truns dflt [] ops).1.length := List.length_pos_iff.mpr hne
  have W : Table.WF hash h.keyOf t := by
    rcases R.good with rfl | W
    · simp [Table.null] at hn; omega
    · exact W
  generalize (truns dflt [] ops).1 = m at *
  obtain ⟨t', e1, e2, e3, e4, e5, e6, e7, e8, e9, e10⟩ := Table.doRehash_spec W.len W.lay W.ne_eq (n := m.length) (by omega)
  refine ⟨h, t, _, t', h1, ?_, ?_⟩
  · unfold rehashN
    rw [w32_of_lt (by omega)]
    exact e1
  · intro k hlk
    have hno : ∀ e ∈ t'.entries, h.keyOf e ≠ some k := by
      intro e he hke
      obtain ⟨v, _, hl⟩ := R.of_key (e6.mem_iff.mp he) hke
      rw [hlk] at hl; cases hl
    have h5 : t'.nb ≤ t'.entries.length := by rw [e6.length_eq, ← W.ne_eq]; omega
    have hf := find_full e2 (by omega) e5 h5 (by omega) hno
    have hi := insert_full e2 (by omega) e5 h5 (by omega) hno h.next
    constructor
    · simp [lookup, find, hf]
    · simp [HashTable.insert, Heap.alloc, hi]

example := C15_rehash_exact_false sampleHash 0 8 sampleOps (by decide) sampleOps_pres (by decide)

/-- C15, what holds: for n above the number of bound keys (and below 1431655766), `rehash(n)` returns, all lookups are unchanged, and every
operation within the limits returns afterwards. Missing: n at most the number of bound keys - false, see above - and sizes from 1431655766. -/
theorem C15_rehash_partial (hash : K → UInt32) (dflt : V) (size : Nat) (ops : List (TOp K V)) (n : Nat)
    (hs : size ≤ 1431524664) (hp : TPres dflt [] ops) (hn : (truns dflt [] ops).1.length < n) (hn2 : n < 1431655766) :
    ∃ h t rs t', runOps hash dflt Heap.empty (Table.new size) ops = .ok (h, t, rs) ∧ rehashN t n = .ok t' ∧ t'.nb = n ∧
      (∀ k, lookup hash h t' k = .ok ((truns dflt [] ops).1.lookup k)) ∧
      ∀ op, TPre (truns dflt [] ops).1 op → ∃ r, step hash dflt h t' op = .ok r := by
  obtain ⟨h, t, h1, R, F, hl, _, _⟩ := runOps_sim (dflt := dflt) ops _ _ _ (new_rel hash hs) empty_fresh (by simp) hp
  obtain ⟨t', e1, e2, e3, e4, e5⟩ := rehashN_sim R F hn (by omega)
  refine ⟨h, t, _, t', h1, e1, e5, fun k => lookup_sim e2 k, fun op hop => ?_⟩
  obtain ⟨h', t2, h2, _⟩ := step_sim (dflt := dflt) e2 F hl op hop
  exact ⟨_, h2⟩

example := C15_rehash_partial sampleHash 0 8 sampleOps 4 (by decide) sampleOps_pres (by simp [sampleOps_length]) (by decide)

/-! ## The hypotheses are satisfiable -/

example : (truns 0 ([] : FMap Nat Nat) sampleOps).2 =
    [.inserted false 10, .inserted false 20, .inserted false 30, .erased true, .inserted true 11, .inserted false 0,
     .found (some 30), .done, .done, .found none] := by decide

/-- the model really runs: same reports, on 17 buckets with colliding keys -/
example : ∃ h t, runOps (fun k : Nat => UInt32.ofNat k) 0 Heap.empty (Table.new 8) sampleOps =
    .ok (h, t, (truns 0 ([] : FMap Nat Nat) sampleOps).2) := ⟨_, _, rfl⟩

example : ∀ n, TOp.rehashN n ∉ ([.assign 1 10, .clear, .assign 2 3] : List (TOp Nat Nat)) := by simp

example : ∀ op ∈ ([.assign 2 10, .erase 3, .rehash, .assign 1 5] : List (TOp Nat Nat)), Keeps 1 op := by
  simp [Keeps]

example : forgotten 0 (fun _ => none) sampleProg = 0 := by
  simp [sampleProg, forgotten, forgets, MWorld.card, mstep, MWorld.put, FMap.set, FMap.erase]

/-- assignments onto tables with two and one bindings: three entries are lost -/
example : MPres 0 (fun _ => none) ([.new 0 8, .assign 0 1 1, .assign 0 2 1, .new 1 8, .assign 1 3 3, .copyAssign 0 1, .moveAssign 1 0,
      .destroy 0, .destroy 1] : List (Stmt Nat Nat)) ∧
    forgotten 0 (fun _ => none) ([.new 0 8, .assign 0 1 1, .assign 0 2 1, .new 1 8, .assign 1 3 3, .copyAssign 0 1, .moveAssign 1 0,
      .destroy 0, .destroy 1] : List (Stmt Nat Nat)) = 3 := by
  simp [forgotten, forgets, MWorld.card, MPres, MPre, mstep, MWorld.put, FMap.set, FMap.erase]

example : ((truns 0 ([] : FMap Nat Nat) sampleOps).1.map fun kv => (UInt32.ofNat kv.1)).Nodup := by decide

example : (truns 0 ([] : FMap Nat Nat) sampleOps).1.length = 3 := by decide

end Eni.Props
