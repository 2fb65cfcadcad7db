import Verif.Proofs.HashSim
import Verif.Spec.TableSpec
/-!
# Histories on one table

Helper lemmas, no property statements.
-/
set_option linter.unusedSectionVars false
set_option linter.unusedVariables false

namespace Eni
open Spec
variable {K V : Type} [DecidableEq K]
namespace HashTable
variable {hash : K → UInt32} {dflt : V} {h : Heap K V} {t : Table Nat} {m : FMap K V}

/-- keys whose entry survives an operation -/
def Spares (k : K) : TOp K V → Prop
  | .erase k' => k' ≠ k
  | .clear => False
  | _ => True

theorem step_sim (R : TRel hash h t m) (F : h.Fresh) (hm : m.length ≤ 1073643498) (op : TOp K V) (hp : TPre m op) :
    ∃ h' t', step hash dflt h t op = .ok (h', t', (tstep dflt m op).2) ∧ TRel hash h' t' (tstep dflt m op).1 ∧
      HStep h t h' t' ∧
      (∀ k q, Spares k op → q ∈ t.entries → h.keyOf q = some k → q ∈ t'.entries ∧ h'.keyOf q = some k) := by
  cases op with
  | insert k =>
    rcases insert_sim (dflt := dflt) R F hp k with ⟨p, v0, hins, hpe, hc, hl⟩ | ⟨hl, t', hins, R', hi, hperm⟩
    · refine ⟨h, t, ?_, ?_, HStep.refl F (List.Perm.refl _), fun k q _ hq hk => ⟨hq, hk⟩⟩
      · simp [step, hins, Heap.getVal, hc, tstep, hl]
      · simp only [tstep, hl]; exact R
    · refine ⟨(h.alloc k dflt).1, t', ?_, ?_, alloc_hstep F R hperm, ?_⟩
      · simp [step, hins, Heap.getVal, Heap.alloc, tstep, hl]
      · simp only [tstep, hl]; exact R'
      · intro k' q _ hq hk
        refine ⟨hperm.mem_iff.mpr (List.mem_cons_of_mem _ hq), ?_⟩
        unfold Heap.keyOf at hk ⊢
        rw [alloc_cells h F _ _ (R.lt_next F hq)]; exact hk
  | assign k v =>
    obtain ⟨h', t', p, h1, h2, _, h3, _, h5, h6⟩ := assign_sim (dflt := dflt) R F hp k v
    refine ⟨h', t', ?_, h2, h3, ?_⟩
    · simp [step, h1, Heap.getVal, h5, tstep]
    · intro k' q _ hq hk
      obtain ⟨h7, h8⟩ := h6 q hq
      exact ⟨h7, by rw [h8]; exact hk⟩
  | erase k =>
    obtain ⟨h', t', h1, h2, _, h3, h4⟩ := erase_sim R F hm k
    refine ⟨h', t', by simp [step, h1, tstep], h2, h3, ?_⟩
    intro k' q hs hq hk
    have hne : h.keyOf q ≠ some k := by
      rw [hk]; intro he; exact hs (Option.some.inj he).symm
    obtain ⟨h7, h8⟩ := h4 q hq hne
    exact ⟨h7, by unfold Heap.keyOf at hk ⊢; rw [h8]; exact hk⟩
  | find k =>
    exact ⟨h, t, by simp [step, lookup_sim R k, tstep], R, HStep.refl F (List.Perm.refl _), fun k q _ hq hk => ⟨hq, hk⟩⟩
  | clear =>
    obtain ⟨h', t', h1, h2, _, h3⟩ := clear_sim R F
    exact ⟨h', t', by simp [step, h1, tstep], h2, h3, fun k q hs _ _ => absurd hs (by simp [Spares])⟩
  | rehash =>
    obtain ⟨t', h1, h2, _, h3⟩ := rehash_sim R F hm
    exact ⟨h, t', by simp [step, h1, tstep], h2, HStep.refl F h3, fun k q _ hq hk => ⟨h3.mem_iff.mpr hq, hk⟩⟩
  | rehashN n =>
    obtain ⟨hp1, hp2⟩ := hp
    obtain ⟨t', h1, h2, _, h3, _⟩ := rehashN_sim R F hp1 (by omega)
    exact ⟨h, t', by simp [step, h1, tstep], h2, HStep.refl F h3, fun k q _ hq hk => ⟨h3.mem_iff.mpr hq, hk⟩⟩

theorem length_erase_le (m : FMap K V) (k : K) : (m.erase k).length ≤ m.length := List.length_filter_le _ _

theorem tstep_length (hf : m.Functional) (hm : m.length ≤ 1073643498) (op : TOp K V) (hp : TPre m op) :
    (tstep dflt m op).1.length ≤ 1073643498 := by
  cases op with
  | insert k =>
    have hp' : m.length < 1073643498 := hp
    simp only [tstep]
    split
    · exact hm
    · simp only [List.length_cons]; omega
  | assign k v =>
    have hp' : m.length < 1073643498 := hp
    have := length_erase_le m k
    simp only [tstep, FMap.set, List.length_cons]; omega
  | erase k =>
    have := length_erase_le m k
    simp only [tstep]; omega
  | find k => exact hm
  | clear => simp [tstep]
  | rehash => exact hm
  | rehashN n => exact hm

theorem runOps_sim : ∀ (ops : List (TOp K V)) (h : Heap K V) (t : Table Nat) (m : FMap K V), TRel hash h t m → h.Fresh →
    m.length ≤ 1073643498 → TPres dflt m ops →
    ∃ h' t', runOps hash dflt h t ops = .ok (h', t', (truns dflt m ops).2) ∧ TRel hash h' t' (truns dflt m ops).1 ∧
      h'.Fresh ∧ (truns dflt m ops).1.length ≤ 1073643498 ∧ HStep h t h' t' ∧
      (∀ k q, (∀ op ∈ ops, Spares k op) → q ∈ t.entries → h.keyOf q = some k → q ∈ t'.entries ∧ h'.keyOf q = some k) := by
  intro ops
  induction ops with
  | nil => intro h t m R F hm _; exact ⟨h, t, rfl, R, F, hm, HStep.refl F (List.Perm.refl _), fun k q _ hq hk => ⟨hq, hk⟩⟩
  | cons op ops ih =>
    intro h t m R F hm hp
    obtain ⟨h1, t1, e1, R1, S1, K1⟩ := step_sim (dflt := dflt) R F hm op hp.1
    obtain ⟨h2, t2, e2, R2, F2, l2, S2, K2⟩ := ih h1 t1 _ R1 S1.fresh (tstep_length R.functional hm op hp.1) hp.2
    refine ⟨h2, t2, ?_, R2, F2, l2, S1.trans S2, ?_⟩
    · simp [runOps, e1, e2, truns]
    · intro k q hs hq hk
      obtain ⟨h3, h4⟩ := K1 k q (hs op List.mem_cons_self) hq hk
      exact K2 k q (fun op hop => hs op (List.mem_cons_of_mem _ hop)) h3 h4

theorem new_rel (hash : K → UInt32) {n : Nat} (hn : n ≤ 1431524664) :
    TRel hash (Heap.empty : Heap K V) (Table.new n) ([] : FMap K V) := by
  obtain ⟨h1, h2⟩ := Table.new_good (E := Nat) hash (Heap.empty : Heap K V).keyOf hn
  exact ⟨h1, by rw [h2]; exact List.Perm.refl _⟩

theorem empty_fresh : (Heap.empty : Heap K V).Fresh := fun _ _ => rfl

/-! ### Load -/

/-- load invariant of histories without `rehash(n)` -/
def Load (t : Table Nat) : Prop :=
  t = Table.null ∨ (Table.SizeOk t.nb ∧ 4 * t.ne ≤ 3 * t.nb ∧ t.nb ≤ 8 * (t.nb - (t.ne + t.nt)))

theorem mayRehash_load {keyOf : Nat → Option K} {u t' : Table Nat} (W : Table.WF1 hash keyOf u) (hne : u.ne ≤ 1073643498)
    (hs : Table.SizeOk u.nb) (hl : 4 * u.ne ≤ 3 * u.nb + 4) (h : Table.mayRehash u = .ok t') : Load t' := by
  obtain ⟨t2, h1, h2, _, h4⟩ := Table.mayRehash_spec W hne
  rw [h] at h1
  have := Res.ok.inj h1
  subst this
  have hsm := W.small
  have hroom := h2.room
  rcases h4 with ⟨rfl, h5, h6⟩ | ⟨h5, h6, h7, h8⟩ | ⟨h5, h6, h7, h8⟩
  · exact Or.inr ⟨hs, h5, h6⟩
  · exact Or.inr ⟨by rw [h5]; exact hs, by omega, by omega⟩
  · have hg := Table.computeBucketSize_gap u.nb (by omega) hs
    exact Or.inr ⟨by rw [h5]; exact Table.computeBucketSize_sizeOk _ (by omega), by omega, by omega⟩

theorem initTable_load {n : Nat} (hn : n ≤ 1431524664) (h0 : n ≠ 0) : Load (Table.initTable n) := by
  have hb := Table.computeBucketSize_bounds n (by omega)
  right
  simp only [Table.initTable, if_pos h0]
  exact ⟨Table.computeBucketSize_sizeOk _ (by omega), by omega, by omega⟩

theorem new_load {n : Nat} (hn : n ≤ 1431524664) : Load (Table.new n) := by
  unfold Table.new
  rw [w32_of_lt (by omega)]
  split
  · rename_i h; exact initTable_load hn h
  · exact Or.inl rfl

theorem insertE_load (R : TRel hash h t m) (F : h.Fresh) (hm : m.length < 1073643498) (L : Load t) {k : K} {t2 i b}
    (he : Table.insertE hash h.keyOf t k h.next = .ok (t2, i, b)) : Load t2 := by
  have hne := R.ne_eq
  rcases Table.insertE_spec R.good (by omega) k with ⟨i2, b2, e, hins, _⟩ | ⟨hno, hins⟩
  · rw [hins] at he
    simp at he
    rw [← he.1]; exact L
  · have hmem : h.next ∉ t.entries := fun hm => by have := R.lt_next F hm; omega
    obtain ⟨i, t', t0, u, h1, h2, h3, h4, h5, h6, h7, h8, h9⟩ :=
      hins (fun e => if e = h.next then some k else h.keyOf e) h.next
        (by intro e he; rw [if_neg]; rintro rfl; exact hmem he) (by simp)
    rw [h1] at he
    simp at he
    obtain ⟨rfl, _⟩ := he
    have L0 : Load t0 := by
      rcases h4 with rfl | ⟨_, rfl⟩
      · exact L
      · exact initTable_load (by omega) (by omega)
    have hne0 : t0.ne = t.ne := by
      rcases h4 with rfl | ⟨rfl, rfl⟩ <;> rfl
    have hpos := h5.pos
    rcases L0 with rfl | ⟨l1, l2, l3⟩
    · rw [h7] at hpos; simp [Table.null] at hpos
    · exact mayRehash_load h5 (by omega) (by rw [h7]; exact l1) (by omega) h6

theorem insert_load (R : TRel hash h t m) (F : h.Fresh) (hm : m.length < 1073643498) (L : Load t) {k : K} {h' t' p ex}
    (hi : insert hash dflt h t k = .ok (h', t', p, ex)) : Load t' := by
  unfold insert at hi
  simp only [Heap.alloc] at hi
  rw [Res.bind_eq_ok] at hi
  obtain ⟨⟨t2, i, b⟩, he, hrest⟩ := hi
  have L2 := insertE_load R F hm L he
  simp only at hrest
  cases b
  · simp at hrest; rw [← hrest.2.1]; exact L2
  · simp only [if_true] at hrest
    split at hrest
    · simp at hrest; rw [← hrest.2.1]; exact L2
    · cases hrest

theorem erase_load (R : TRel hash h t m) (hm : m.length ≤ 1073643498) (L : Load t) {k : K} {h' t' b}
    (hi : erase hash h t k = .ok (h', t', b)) : Load t' := by
  have hne := R.ne_eq
  unfold erase at hi
  rcases Table.eraseE_spec R.good (by omega) k with ⟨h1, _⟩ | ⟨p, t2, u, h1, hk, hp, W, W1, h5, h6, h7, h8⟩
  · rw [h1] at hi
    simp at hi
    rw [← hi.2.1]; exact L
  · rw [h1] at hi
    simp only [Res.ok_bind] at hi
    rw [Res.bind_eq_ok] at hi
    obtain ⟨h2, _, hr⟩ := hi
    simp at hr
    rw [← hr.2.1]
    have hpos := W1.pos
    rcases L with rfl | ⟨l1, l2, l3⟩
    · rw [h6] at hpos; simp [Table.null] at hpos
    · exact mayRehash_load W1 (by omega) (by rw [h6]; exact l1) (by omega) h5

/-- operations other than `rehash(n)` -/
def NoRehashN : TOp K V → Prop
  | .rehashN _ => False
  | _ => True

theorem step_load (R : TRel hash h t m) (F : h.Fresh) (hm : m.length ≤ 1073643498) (op : TOp K V) (hp : TPre m op)
    (hno : NoRehashN op) (L : Load t) {h' t' r} (hs : step hash dflt h t op = .ok (h', t', r)) : Load t' := by
  have hne := R.ne_eq
  cases op with
  | insert k =>
    simp only [step] at hs
    rw [Res.bind_eq_ok] at hs
    obtain ⟨⟨h2, t2, p, ex⟩, he, hr⟩ := hs
    simp only at hr
    rw [Res.bind_eq_ok] at hr
    obtain ⟨v, _, hr⟩ := hr
    simp at hr
    rw [← hr.2.1]; exact insert_load R F hp L he
  | assign k v =>
    simp only [step, assign] at hs
    rw [Res.bind_eq_ok] at hs
    obtain ⟨⟨h2, t2, p, ex⟩, he, hr⟩ := hs
    rw [Res.bind_eq_ok] at he
    obtain ⟨⟨h3, t3, p3, ex3⟩, he3, hr3⟩ := he
    simp only at hr hr3
    rw [Res.bind_eq_ok] at hr hr3
    obtain ⟨v, _, hr⟩ := hr
    obtain ⟨v, _, hr3⟩ := hr3
    simp at hr hr3
    rw [← hr.2.1, ← hr3.2.1]; exact insert_load R F hp L he3
  | erase k =>
    simp only [step] at hs
    rw [Res.bind_eq_ok] at hs
    obtain ⟨⟨h2, t2, b⟩, he, hr⟩ := hs
    simp at hr
    rw [← hr.2.1]; exact erase_load R hm L he
  | find k =>
    simp only [step] at hs
    rw [Res.bind_eq_ok] at hs
    obtain ⟨_, _, hr⟩ := hs
    simp at hr
    rw [← hr.2.1]; exact L
  | clear =>
    simp only [step, clear] at hs
    split at hs
    · simp at hs; rw [← hs.2.1]; exact L
    · rw [Res.bind_eq_ok] at hs
      obtain ⟨⟨h2, t2⟩, he, hr⟩ := hs
      rw [Res.bind_eq_ok] at he
      obtain ⟨h3, _, hr3⟩ := he
      simp at hr hr3
      rw [← hr.2.1, ← hr3.2]; exact Or.inl rfl
  | rehash =>
    simp only [step] at hs
    rw [Res.bind_eq_ok] at hs
    obtain ⟨t2, he, hr⟩ := hs
    simp at hr
    rw [← hr.2.1]
    rcases R.good with rfl | W
    · have : rehash (Table.null : Table Nat) = .ok Table.null := by
        simp [rehash, Table.mayRehash, Table.null, w32, sub32]
      rw [this] at he
      exact Or.inl (Res.ok.inj he).symm
    · rcases L with rfl | ⟨l1, l2, l3⟩
      · have := W.room; simp [Table.null] at this
      · exact mayRehash_load W.to1 (by omega) l1 (by omega) he
  | rehashN n => exact absurd hno (by simp [NoRehashN])

theorem runOps_load : ∀ (ops : List (TOp K V)) (h : Heap K V) (t : Table Nat) (m : FMap K V), TRel hash h t m → h.Fresh →
    m.length ≤ 1073643498 → TPres dflt m ops → (∀ op ∈ ops, NoRehashN op) → Load t →
    ∀ h' t' rs, runOps hash dflt h t ops = .ok (h', t', rs) → Load t' := by
  intro ops
  induction ops with
  | nil =>
    intro h t m R F hm _ _ L h' t' rs hr
    simp [runOps] at hr
    rw [← hr.2.1]; exact L
  | cons op ops ih =>
    intro h t m R F hm hp hno L h' t' rs hr
    obtain ⟨h1, t1, e1, R1, S1, K1⟩ := step_sim (dflt := dflt) R F hm op hp.1
    have L1 := step_load R F hm op hp.1 (hno _ List.mem_cons_self) L e1
    simp only [runOps, e1, Res.ok_bind] at hr
    rw [Res.bind_eq_ok] at hr
    obtain ⟨⟨h2, t2, rs2⟩, he, hr2⟩ := hr
    simp at hr2
    rw [← hr2.2.1]
    exact ih h1 t1 _ R1 S1.fresh (tstep_length R.functional hm op hp.1) hp.2
      (fun op hop => hno op (List.mem_cons_of_mem _ hop)) L1 h2 t2 rs2 he

end HashTable
end Eni
