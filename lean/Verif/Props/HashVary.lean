import Verif.Proofs.HashVary
/-!
# C123: hash functions that do not keep their answers
-/
namespace Eni.Props
open Spec HashTable

variable {K V : Type} [DecidableEq K]

/-- C123. Any history in which the hash function may be a different one in every call, and in which keys of stored entries are overwritten: no undefined
behaviour, no endless loop, and every report is that of a finite map whose keys are pairs of key and hash value. At the end, with any hash
function `f`, a key is found exactly if it is bound together with its present hash value; the number of entries is the number of pairs, no pair
is bound twice, and the entries in the array are the bindings. -/
theorem C123_pairs (dflt : V) (size : Nat) (ops : List ((K → UInt32) × HVOp K V)) (hs : size ≤ 1431524664) (hp : HVPres dflt [] ops) :
    ∃ h t, runV dflt Heap.empty (Table.new size) ops = .ok (h, t, (hvruns dflt [] ops).2) ∧
      (∀ (f : K → UInt32) k, lookup f h t k = .ok ((hvruns dflt [] ops).1.lookup (k, f k))) ∧
      t.ne = (hvruns dflt [] ops).1.length ∧ (hvruns dflt [] ops).1.Functional ∧
      (t.entries.map h.cells).Perm ((hvruns dflt [] ops).1.map fun kv => some ⟨kv.1.1, kv.2⟩) := by
  obtain ⟨g, t, h1, R, F, S⟩ := runV_sim (dflt := dflt) ops _ _ _ (new_rel Prod.snd hs) empty_fresh (by simp) hp
  refine ⟨g.forget, t, h1, fun f k => lookup_forget R.good k (lookup_sim R (k, f k)), R.ne_eq, R.functional, ?_⟩
  have h2 := R.abs.map (Option.map fun c : Cell (K × UInt32) V => (⟨c.key.1, c.val⟩ : Cell K V))
  rw [List.map_map, List.map_map] at h2
  exact h2

/-- C123, memory: after such a history the destructor releases every entry once and nothing stays allocated. -/
theorem C123_released (dflt : V) (size : Nat) (ops : List ((K → UInt32) × HVOp K V)) (hs : size ≤ 1431524664) (hp : HVPres dflt [] ops) :
    ∃ h t rs h', runV dflt Heap.empty (Table.new size) ops = .ok (h, t, rs) ∧ destroy h t = .ok h' ∧ ∀ p, h'.cells p = none := by
  obtain ⟨g, t, h1, R, F, S⟩ := runV_sim (dflt := dflt) ops _ _ _ (new_rel Prod.snd hs) empty_fresh (by simp) hp
  obtain ⟨g', t', e1, e2, e3, e4⟩ := clear_sim R F
  refine ⟨g.forget, t, _, g'.forget, h1, by simp [destroy, clear_forget e1], fun p => ?_⟩
  cases hc : g'.cells p with
  | none => simp [Heap.forget, hc]
  | some c =>
    exfalso
    have ht' : t'.entries = [] := by rw [← List.length_eq_zero_iff, ← e2.good.ne_eq, e2.ne_eq]; rfl
    rcases e4.exact p (by rw [hc]; simp) with h5 | ⟨h5, h6⟩
    · rw [ht'] at h5; cases h5
    · have hcp : g.cells p ≠ none := by rw [← e4.frame p h5 h6, hc]; simp
      rcases S.exact p hcp with h7 | ⟨h7, _⟩
      · exact h6 h7
      · simp [Heap.empty] at h7

/-- one operation more at the end of a history -/
theorem hvruns_snoc (dflt : V) (f : K → UInt32) (op : HVOp K V) : ∀ (ops : List ((K → UInt32) × HVOp K V)) (m : FMap (K × UInt32) V),
    (hvruns dflt m (ops ++ [(f, op)])).1 = (hvstep dflt f (hvruns dflt m ops).1 op).1 ∧
    (HVPres dflt m (ops ++ [(f, op)]) ↔ HVPres dflt m ops ∧ HVPre f (hvruns dflt m ops).1 op) := by
  intro ops
  induction ops with
  | nil => intro m; simp [hvruns, HVPres]
  | cons a ops ih =>
    obtain ⟨f0, op0⟩ := a
    intro m
    simp only [List.cons_append, hvruns, HVPres, ih, and_assoc, and_self]

/-- C123, an orphaned entry: overwriting the key `k` of a stored entry by a key with another hash value leaves an entry that `find` does not
reach, neither by the old key nor by the new one; it still counts, and every other key is found as before. -/
theorem C123_orphan (dflt : V) (size : Nat) (ops : List ((K → UInt32) × HVOp K V)) (hs : size ≤ 1431524664) (hp : HVPres dflt [] ops)
    (f : K → UInt32) (k k2 : K) (hf : f k2 ≠ f k) (hb : (hvruns dflt [] ops).1.lookup (k, f k) ≠ none)
    (hn : (hvruns dflt [] ops).1.lookup (k2, f k) = none) :
    ∃ h t rs, runV dflt Heap.empty (Table.new size) (ops ++ [(f, .rekey k k2)]) = .ok (h, t, rs) ∧
      t.ne = (hvruns dflt [] ops).1.length ∧ lookup f h t k = .ok none ∧
      ∀ j, j ≠ k → lookup f h t j = .ok ((hvruns dflt [] ops).1.lookup (j, f j)) := by
  obtain ⟨e1, e2⟩ := hvruns_snoc dflt f (.rekey k k2) ops ([] : FMap (K × UInt32) V)
  obtain ⟨h0, t0, _, _, _, hfun, _⟩ := C123_pairs dflt size ops hs hp
  obtain ⟨h, t, h1, h2, h3, h4, _⟩ := C123_pairs dflt size (ops ++ [(f, .rekey k k2)]) hs (e2.mpr ⟨hp, Or.inr hn⟩)
  rw [e1] at h2 h3
  generalize (hvruns dflt [] ops).1 = m at *
  cases hl : m.lookup (k, f k) with
  | none => exact absurd hl hb
  | some v =>
    simp only [hvstep, hl] at h2 h3
    have hlen := (FMap.perm_erase hfun hl).length_eq
    have hmiss : ∀ j, FMap.lookup (((k2, f k), v) :: m.erase (k, f k)) (j, f j) = (m.erase (k, f k)).lookup (j, f j) := by
      intro j
      have hne : ¬ ((k2, f k) = (j, f j)) := by
        intro h
        have h1 := (Prod.mk.inj h).1
        have h2 := (Prod.mk.inj h).2
        rw [← h1] at h2
        exact hf h2.symm
      simp [FMap.lookup, hne]
    refine ⟨h, t, _, h1, by simp only [List.length_cons] at h3 hlen; omega, ?_, ?_⟩
    · rw [h2 f k, hmiss]
      simp [FMap.lookup_erase]
    · intro j hj
      rw [h2 f j, hmiss]
      simp [FMap.lookup_erase, hj]

/-- a hash function that alternates -/
def fickle (i : Nat) : Nat → UInt32 := fun k => (k * 7 + i).toUInt32

/-- The same key twice, each found again only while the hash function gives the value it had; then a key is overwritten. -/
def fickleOps : List ((Nat → UInt32) × HVOp Nat Nat) :=
  [(fickle 0, .op (.assign 1 10)), (fickle 1, .op (.assign 1 11)), (fickle 2, .op (.find 1)), (fickle 0, .op (.find 1)),
   (fickle 1, .op .rehash), (fickle 1, .op (.find 1)), (fickle 1, .rekey 1 5), (fickle 1, .op (.find 1)), (fickle 1, .op (.find 5))]

theorem fickleOps_pres : HVPres 0 [] fickleOps := by
  refine ⟨(by decide : (0 : Nat) < 1073643498), (by decide : (1 : Nat) < 1073643498), trivial, trivial, trivial, trivial, Or.inr (by decide), trivial, trivial, trivial⟩

example := C123_pairs 0 8 fickleOps (by decide) fickleOps_pres
example := C123_released 0 8 fickleOps (by decide) fickleOps_pres
example : (hvruns 0 [] fickleOps).2 = [.inserted false 10, .inserted false 11, .found none, .found (some 10), .done, .found (some 11),
  .found (some 11), .found none, .found none] := by decide
example := C123_orphan 0 8 (fickleOps.take 3) (by decide) ⟨(by decide : (0 : Nat) < 1073643498), (by decide : (1 : Nat) < 1073643498), trivial, trivial⟩ (fickle 0) 1 5 (by decide) (by decide) (by decide)

end Eni.Props
