import Verif.Proofs.HashAlloc
import Verif.Props.HashLimits
/-!
# Property C83: a `HashTable` that is refused memory

The table asks for its bucket array, for each entry and for a new array at each rehash; each request can be refused.
-/
namespace Eni.Props
open Spec HashTable
variable {K V : Type} [DecidableEq K]

/-- C83, what holds for every table, every history and every choice of the refused requests: the program has undefined behaviour, or every
operation reports what the finite map reports, and so does every later lookup. No refusal makes the table answer wrongly. Missing: that the
first case does not occur - false, see below. -/
theorem C83_partial (hash : K → UInt32) (dflt : V) (size : Nat) (g : Bool) (ops : List (Grant × TOp K V)) (hs : size ≤ 1431524664)
    (hp : TPres dflt [] (ops.map Prod.snd)) :
    (∃ u, runOpsA hash dflt Heap.empty (Table.newA g size) ops = .ub u) ∨
    ∃ h t, runOpsA hash dflt Heap.empty (Table.newA g size) ops = .ok (h, t, (truns dflt [] (ops.map Prod.snd)).2) ∧
      t.ne = (truns dflt [] (ops.map Prod.snd)).1.length ∧ ∀ k, lookup hash h t k = .ok ((truns dflt [] (ops.map Prod.snd)).1.lookup k) := by
  have A : ARel hash (Heap.empty : Heap K V) (Table.newA g size) [] := by
    cases g with
    | false => exact Or.inr ⟨newA_lost size, rfl⟩
    | true => rw [newA_true]; exact Or.inl (new_rel hash hs)
  rcases runOpsA_sim (dflt := dflt) ops _ _ _ A empty_fresh List.nodup_nil (by simp) hp with hu | ⟨h, t, e, A', _⟩
  · exact Or.inl hu
  · refine Or.inr ⟨h, t, e, ?_, ?_⟩
    · rcases A' with R | ⟨L, hm⟩
      · exact R.ne_eq
      · rw [L.ne, hm]; rfl
    · intro k
      rcases A' with R | ⟨L, hm⟩
      · exact lookup_sim R k
      · rw [hm]; simp [lookup, HashTable.find, Table.findE, Table.findKey, L.init, FMap.lookup]

/-- the requests of a history are refused in turn: the constructor, a bound key's second insertion, the rehash of a table emptied before -/
def refusedOps : List (Grant × TOp Nat Nat) :=
  [(.all, .assign 1 2), (⟨false, false, false⟩, .assign 1 3), (⟨false, false, false⟩, .erase 1), (⟨false, false, false⟩, .rehashN 40),
   (⟨false, false, false⟩, .find 1), (.all, .insert 4)]

example : TPres 0 ([] : FMap Nat Nat) (refusedOps.map Prod.snd) := by
  simp [refusedOps, TPres, TPre, tstep, FMap.set, FMap.erase]

/-- the second case of `C83_partial` is met although requests were refused -/
example : (match runOpsA (fun k : Nat => UInt32.ofNat k) 0 (Heap.empty : Heap Nat Nat) (Table.newA false 8) refusedOps with
    | .ok (_, _, rs) => some rs
    | _ => none) = some [.inserted false 2, .inserted true 3, .erased true, .done, .found none, .inserted false 0] := by
  decide +kernel

/-- C83, the bucket array of the constructor: a table whose constructor was refused its array works as if constructed empty, for every
history without `rehash(n)`, once memory is available again. -/
theorem C83_constructor_partial (hash : K → UInt32) (dflt : V) (size : Nat) (ops : List (TOp K V)) (hs : size ≤ 536739810)
    (hr : ∀ op ∈ ops, ∀ n, op ≠ .rehashN n) (hp : TPres dflt [] ops) :
    ∃ h t, runOpsA hash dflt Heap.empty (Table.newA false size) (ops.map fun op => (Grant.all, op)) = .ok (h, t, (truns dflt [] ops).2) ∧
      ∀ k, lookup hash h t k = .ok ((truns dflt [] ops).1.lookup k) := by
  rw [runOpsA_all]
  obtain ⟨h, t, e, R⟩ := runOps_lost (hash := hash) (dflt := dflt) ops Heap.empty _ (newA_lost size) (newA_nb hs) empty_fresh hr hp
  refine ⟨h, t, e, fun k => ?_⟩
  rcases R with R | ⟨rfl, hm⟩
  · exact lookup_sim R k
  · rw [hm]; simp [lookup, HashTable.find, Table.findE, Table.findKey, (newA_lost size).init, FMap.lookup]

example : (∀ op ∈ ([.rehash, .assign 1 2, .erase 1, .find 3] : List (TOp Nat Nat)), ∀ n, op ≠ .rehashN n) ∧
    TPres 0 ([] : FMap Nat Nat) [.rehash, .assign 1 2, .erase 1, .find 3] := by
  refine ⟨by simp, ?_⟩
  simp [TPres, TPre, tstep]

/-- C83 is false of the code, for every table and every history: inserting a key that is not bound writes through a null pointer when the
entry is refused. -/
theorem C83_insert_false (hash : K → UInt32) (dflt : V) (size : Nat) (ops : List (TOp K V)) (hs : size ≤ 1431524664) (hp : TPres dflt [] ops)
    (k : K) (v : V) (hk : (truns dflt [] ops).1.lookup k = none) (hl : (truns dflt [] ops).1.length < 1073643498) (g : Grant)
    (hg : g.entry = false) :
    ∃ h t, runOpsA hash dflt Heap.empty (Table.newA true size) (ops.map fun op => (Grant.all, op)) = .ok (h, t, (truns dflt [] ops).2) ∧
      stepA g hash dflt h t (.insert k) = .ub .nullDeref ∧ stepA g hash dflt h t (.assign k v) = .ub .nullDeref := by
  rw [runOpsA_all, newA_true]
  obtain ⟨h, t, e, R, F, _⟩ := runOps_sim (dflt := dflt) ops _ _ _ (new_rel hash hs) empty_fresh (by simp) hp
  have hi := step_insert_refused (dflt := dflt) R F hl hk hg
  refine ⟨h, t, e, ?_, ?_⟩
  · simp only [stepA, hi]; rfl
  · simp only [stepA, assignA, hi]; rfl

example : (truns 0 ([] : FMap Nat Nat) [.assign 1 2, .assign 5 6, .erase 1]).1.lookup 1 = none ∧
    (truns 0 ([] : FMap Nat Nat) [.assign 1 2, .assign 5 6, .erase 1]).1.length < 1073643498 := by decide

/-- C83 is false of the code, for every table that has a binding: `rehash(n)` writes through a null pointer when the new array is refused. -/
theorem C83_rehash_false (hash : K → UInt32) (dflt : V) (size : Nat) (ops : List (TOp K V)) (hs : size ≤ 1431524664) (hp : TPres dflt [] ops)
    (hb : (truns dflt [] ops).1 ≠ []) (n : Nat) (hn : 0 < n) (hn' : n < 4294967296) (g : Grant) (hg : g.re = false) :
    ∃ h t, runOpsA hash dflt Heap.empty (Table.newA true size) (ops.map fun op => (Grant.all, op)) = .ok (h, t, (truns dflt [] ops).2) ∧
      stepA g hash dflt h t (.rehashN n) = .ub .nullDeref := by
  rw [runOpsA_all, newA_true]
  obtain ⟨h, t, e, R, F, _⟩ := runOps_sim (dflt := dflt) ops _ _ _ (new_rel hash hs) empty_fresh (by simp) hp
  refine ⟨h, t, e, ?_⟩
  simp only [stepA, hg]
  rw [show w32 n = n from w32_of_lt hn', doRehashA_refused R hb (by omega)]
  rfl

example : (truns 0 ([] : FMap Nat Nat) [.assign 1 2, .assign 5 6, .erase 1]).1 ≠ [] := by decide

/-- C83 is false of the code: after a refused constructor `rehash(n)` and the copy constructor read an array that does not exist, although
all their own requests are granted; without the refusal both succeed. -/
theorem C83_constructor_false (hash : K → UInt32) (dflt : V) (size n : Nat) (h0 : 0 < size) (hs : size ≤ 1431524664) (hn : 0 < n)
    (hn' : n < 1431655766) :
    stepA .all hash dflt Heap.empty (Table.newA false size) (.rehashN n : TOp K V) = .ub .outOfBounds ∧
    copyA .all (Heap.empty : Heap K V) (Table.newA false size) = .ub .nullDeref ∧
    (∃ h t, stepA .all hash dflt Heap.empty (Table.newA true size) (.rehashN n : TOp K V) = .ok (h, t, .done)) ∧
    ∃ h t, copyA .all (Heap.empty : Heap K V) (Table.newA true size) = .ok (h, t) := by
  have hw : w32 size = size := w32_of_lt (by omega)
  have hc := (Table.computeBucketSize_bounds size (by omega)).1
  have hnb : (Table.newA false size : Table Nat) = ⟨false, [], Table.computeBucketSize size, 0, 0⟩ := by
    unfold Table.newA Table.initTableA
    rw [hw, if_pos (by omega), if_neg (by simp), if_pos (by omega)]
  refine ⟨?_, ?_, ?_, ?_⟩
  · simp only [stepA, Grant.all, Table.doRehashA_true, hnb]
    unfold Table.doRehash
    rw [if_pos (by simp; omega)]
    rfl
  · unfold copyA
    rw [hnb, if_pos ⟨by simp; omega, Or.inl rfl⟩]
  · rw [newA_true, stepA_all]
    obtain ⟨h', t', e, _⟩ := step_sim (dflt := dflt) (new_rel (V := V) hash hs) empty_fresh (by simp) (.rehashN n) ⟨by simpa using hn, hn'⟩
    exact ⟨h', t', e⟩
  · rw [newA_true]
    unfold copyA
    have hi : (Table.new size : Table Nat).init = true := by
      unfold Table.new; rw [hw, if_pos (by omega)]; rfl
    rw [if_neg (by simp [hi, Grant.all]), if_neg (by simp [Grant.all])]
    obtain ⟨h', t', e, _⟩ := copy_sim (new_rel (V := V) hash hs) empty_fresh hi
    exact ⟨h', t', e⟩

example : (0 : Nat) < 8 ∧ (8 : Nat) ≤ 1431524664 ∧ (0 : Nat) < 40 ∧ (40 : Nat) < 1431655766 := by omega

/-- C83, a table without an array (the source of a move) can be copied whether or not memory is granted. -/
theorem C83_copy_empty (g : Grant) : ∃ t, copyA g (Heap.empty : Heap K V) Table.null = .ok (Heap.empty, t) ∧ t.nb = 0 ∧ t.ne = 0 :=
  ⟨_, rfl, rfl, rfl⟩

end Eni.Props
