import Verif.Proofs.HashCost
import Verif.Props.HashLimits
import Verif.Props.HashErase
/-!
# Property C86: the cost of growing
-/
namespace Eni.Props
open Spec HashTable
variable {K V : Type} [DecidableEq K]

/-- C86, what holds: every history of n ≤ 400000000 operations without `rehash(n)` on a table with an initial size up to 536739810 moves
at most n²/196650 + 10 n entries in total; the counted history has exactly the states and reports of the history. Missing: a bound
proportional to n, larger initial sizes - false, see below. -/
theorem C86_partial (hash : K → UInt32) (dflt : V) (size : Nat) (ops : List (TOp K V)) (hs : size ≤ 536739810)
    (hl : ops.length ≤ 400000000) (hr : ∀ n, TOp.rehashN n ∉ ops) :
    ∃ h t rs moves, runOpsC hash dflt Heap.empty (Table.new size) ops = .ok ((h, t, rs), moves) ∧
      runOps hash dflt Heap.empty (Table.new size) ops = .ok (h, t, rs) ∧
      196650 * moves ≤ ops.length * ops.length + 10 * 196650 * ops.length := by
  have hp := C01_limits (V := V) dflt ops (by omega) hr
  have hnew : (Table.new size : Table Nat).ne = 0 ∧ (Table.new size : Table Nat).nt = 0 ∧ (Table.new size : Table Nat).nb ≤ 536870911 := by
    unfold Table.new
    rw [w32_of_lt (by omega)]
    split
    · rename_i h
      have := Table.computeBucketSize_bounds size (by omega)
      simp only [Table.initTable, if_pos h]
      refine ⟨trivial, trivial, by omega⟩
    · simp [Table.null]
  obtain ⟨h, t, c, h1, h2, _⟩ := runOpsC_inv (hash := hash) (dflt := dflt) Up NoRehashN (fun _ h => h) (N := 400000000)
    (fun op t t' n M c _ hn _ hI D => up_step (by omega) hI D) ops _ _ _ 0 0 (new_rel hash (by omega : size ≤ 1431524664)) empty_fresh
    (by simp) hp (noRehashN hr) (new_load (by omega)) (by omega)
    ⟨0, 0, 0, 0, rfl, by omega, by omega, by omega, Or.inl ⟨rfl, hnew.2.2⟩⟩
  refine ⟨h, t, _, c, h1, ?_, ?_⟩
  · rw [runOpsC_fst, h1]; rfl
  · have := h2.bound
    simpa using this

/-- so up to two million operations the average is at most 21 moves -/
example (n moves : Nat) (hn : n ≤ 2000000) (h : 196650 * moves ≤ n * n + 10 * 196650 * n) : moves ≤ 21 * n := by
  have : n * n ≤ 2000000 * n := Nat.mul_le_mul_right n hn
  omega

example : ∀ n, (TOp.rehashN n : TOp Nat Nat) ∉ [.insert 1, .assign 2 5, .erase 1, .clear, .rehash] := by simp

/-- C86 is false of the code: from 196613 buckets on a table grows by a constant. After every history without `clear` and `rehash(n)` that
leaves n bindings in a table with initial size below 196613, at least n²/196652 - n entries have been moved. -/
theorem C86_growth_false (hash : K → UInt32) (dflt : V) (size : Nat) (ops : List (TOp K V)) (hs : size < 196613)
    (hp : TPres dflt [] ops) (hr : ∀ n, TOp.rehashN n ∉ ops) (hc : TOp.clear ∉ ops) :
    ∃ h t rs moves, runOpsC hash dflt Heap.empty (Table.new size) ops = .ok ((h, t, rs), moves) ∧
      runOps hash dflt Heap.empty (Table.new size) ops = .ok (h, t, rs) ∧ t.ne = (truns dflt [] ops).1.length ∧
      t.ne * t.ne ≤ 196652 * (moves + t.ne) := by
  have hnew : (Table.new size : Table Nat).nb ≤ 196613 := by
    unfold Table.new
    rw [w32_of_lt (by omega)]
    split
    · rename_i h
      simp only [Table.initTable, if_pos h]
      exact cbs_small hs
    · simp [Table.null]
  obtain ⟨h, t, c, h1, h2, h3, h4⟩ := runOpsC_inv (hash := hash) (dflt := dflt) Low (fun op => NoRehashN op ∧ op ≠ .clear)
    (fun _ h => h.1) (N := ops.length) (fun op t t' n M c hg hn _ hI D => low_step hg.2 hI D) ops _ _ _ 0 0
    (new_rel hash (by omega : size ≤ 1431524664)) empty_fresh (by simp) hp
    (fun op ho => ⟨noRehashN hr op ho, by rintro rfl; exact hc ho⟩) (new_load (by omega)) (by omega)
    (by unfold Low; rw [Nat.sub_eq_zero_of_le hnew])
  refine ⟨h, t, _, c, h1, ?_, h3.ne_eq, ?_⟩
  · rw [runOpsC_fst, h1]; rfl
  · have hlow : 3 * (t.nb - 196613) * (t.nb - 196613 + 262125) ≤ 1048808 * c := by simpa [Low] using h2
    rcases h4 with rfl | ⟨_, h5, _⟩
    · simp [Table.null]
    · exact low_final hlow h5

/-- inserting n keys; a thousand million keys are moved more than five thousand times on average -/
example (hash : Nat → UInt32) (n : Nat) (hn : n ≤ 1073643498) :
    ∃ h t rs moves, runOpsC hash (0 : Nat) Heap.empty (Table.new 8) ((List.range n).map .insert) = .ok ((h, t, rs), moves) ∧
      n * n ≤ 196652 * (moves + n) ∧ (n = 1000000000 → 5000 * n ≤ moves) := by
  have hr : ∀ i, (TOp.rehashN i : TOp Nat Nat) ∉ (List.range n).map .insert := by simp
  obtain ⟨h, t, rs, mv, h1, _, h2, h3⟩ := C86_growth_false hash (0 : Nat) 8 ((List.range n).map .insert) (by omega)
    (C01_limits (V := Nat) 0 _ (by simpa using hn) hr) hr (by simp)
  have ht := truns_inserts (0 : Nat) (List.range n) [] (by simpa using List.nodup_range)
  rw [ht.2] at h2
  simp only [List.append_nil, List.length_map, List.length_reverse, List.length_range] at h2
  rw [h2] at h3
  exact ⟨h, t, rs, mv, h1, h3, by rintro rfl; omega⟩

/-- C86 is false of the code, second reason: with initial sizes from 536739811 to 613435655 the number of free buckets times 8 wraps, the
table seems to be nearly full of removed entries, and every insertion moves all entries. -/
theorem C86_reserve_false (hash : K → UInt32) (dflt : V) (size : Nat) (ks : List K) (hs : 536739811 ≤ size) (hs' : size ≤ 613435655)
    (hnd : ks.Nodup) (hl : ks.length ≤ size - 536739811) :
    ∃ h t moves, runOpsC hash dflt Heap.empty (Table.new size) (ks.map .insert) =
        .ok ((h, t, ks.map fun _ => .inserted false dflt), moves) ∧
      runOps hash dflt Heap.empty (Table.new size) (ks.map .insert) = .ok (h, t, ks.map fun _ => .inserted false dflt) ∧
      2 * moves = ks.length * (ks.length + 1) := by
  have key : ∀ (new : List K) (h : Heap K V) (t : Table Nat) (m : FMap K V), TRel hash h t m → h.Fresh → t.nb = size + 131101 →
      t.nt = 0 → m.length + new.length ≤ size - 536739811 → (new.reverse ++ m.map Prod.fst).Nodup →
      ∃ h' t' moves, runOpsC hash dflt h t (new.map .insert) = .ok ((h', t', new.map fun _ => .inserted false dflt), moves) ∧
        2 * moves = new.length * (new.length + 1) + 2 * (m.length * new.length) := by
    intro new
    induction new with
    | nil => intro h t m _ _ _ _ _ _; exact ⟨h, t, 0, rfl, by simp⟩
    | cons k new ih =>
      intro h t m R F hb ht hlen hn
      rw [List.reverse_cons, List.append_assoc] at hn
      simp only [List.length_cons] at hlen
      have hk : m.lookup k = none := by
        rw [FMap.lookup_none_iff]
        intro v hm
        have := (List.nodup_append.mp hn).2.1
        simp only [List.singleton_append, List.nodup_cons] at this
        exact this.1 (List.mem_map.mpr ⟨_, hm, rfl⟩)
      obtain ⟨h1, t1, e1, R1, F1, b1, n1⟩ := reserve_insert (dflt := dflt) (N := size + 131101) (by omega) (by omega) R F hb ht (by omega) hk
      obtain ⟨h2, t2, mv, e2, e3⟩ := ih h1 t1 _ R1 F1 b1 n1 (by simp only [List.length_cons]; omega) hn
      refine ⟨h2, t2, m.length + 1 + mv, ?_, ?_⟩
      · simp only [List.map_cons, runOpsC, e1, Res.ok_bind, e2]
      · simp only [List.length_cons] at e3 ⊢
        have a1 : (m.length + 1) * new.length = m.length * new.length + new.length := by ring
        have a2 : m.length * (new.length + 1) = m.length * new.length + m.length := by ring
        have a3 : (new.length + 1) * (new.length + 1 + 1) = new.length * (new.length + 1) + 2 * new.length + 2 := by ring
        rw [a1] at e3
        rw [a2, a3]
        generalize new.length * (new.length + 1) = x, m.length * new.length = y at *
        omega
  have ht : (Table.new size : Table Nat) = Table.initTable size := by
    unfold Table.new
    rw [w32_of_lt (by omega), if_pos (by omega)]
  have hnb : (Table.new size : Table Nat).nb = size + 131101 := by
    rw [ht]
    simp only [Table.initTable, if_pos (by omega : size ≠ 0)]
    exact cbs_large (by omega) (by omega)
  obtain ⟨h, t, mv, h1, h2⟩ := key ks _ _ _ (new_rel hash (by omega : size ≤ 1431524664)) empty_fresh hnb (by rw [ht]; rfl)
    (by simpa using hl) (by simpa using hnd)
  refine ⟨h, t, mv, h1, ?_, by simpa using h2⟩
  rw [runOpsC_fst, h1]; rfl

example : (List.range 60000000).Nodup ∧ (List.range 60000000).length ≤ 600000000 - 536739811 := ⟨List.nodup_range, by simp⟩

end Eni.Props
