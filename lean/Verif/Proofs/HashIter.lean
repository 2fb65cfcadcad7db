import Verif.Proofs.HashHistory
import Mathlib.Data.List.Rotate
/-!
# Iterators, `count` and explicit `rehash(n)`

Helper lemmas, no property statements.
-/
set_option linter.unusedSectionVars false
set_option linter.unusedVariables false

namespace Eni
open Spec
namespace HashTable
open Table
variable {E K V : Type} [DecidableEq K]

/-! ### full iteration -/

theorem scanFull_spec : ∀ (bs : List (Bucket E)) (i : Nat),
    (scanFull bs i = none ∧ ents bs = []) ∨
    (∃ (d : Nat) (b : Bucket E) (e : E), scanFull bs i = some (i + d) ∧ bs[d]? = some b ∧ b.slot = .full e ∧
      ents bs = e :: ents (bs.drop (d + 1))) := by
  intro bs
  induction bs with
  | nil => intro i; left; exact ⟨rfl, rfl⟩
  | cons b bs ih =>
    intro i
    rcases b with ⟨hh, s⟩
    have skip : ents (⟨hh, s⟩ :: bs) = ents bs → scanFull (⟨hh, s⟩ :: bs) i = scanFull bs (i + 1) →
        (scanFull (⟨hh, s⟩ :: bs) i = none ∧ ents (⟨hh, s⟩ :: bs) = []) ∨
        (∃ (d : Nat) (b : Bucket E) (e : E), scanFull (⟨hh, s⟩ :: bs) i = some (i + d) ∧
          (⟨hh, s⟩ :: bs : List (Bucket E))[d]? = some b ∧ b.slot = .full e ∧
          ents (⟨hh, s⟩ :: bs) = e :: ents ((⟨hh, s⟩ :: bs : List (Bucket E)).drop (d + 1))) := by
      intro h1 h2
      rcases ih (i + 1) with ⟨h3, h4⟩ | ⟨d, b, e, h3, h4, h5, h6⟩
      · left; rw [h2, h1]; exact ⟨h3, h4⟩
      · right
        refine ⟨d + 1, b, e, ?_, ?_, h5, ?_⟩
        · rw [h2, h3]; congr 1; omega
        · simpa using h4
        · rw [h1, h6]; simp
    cases s with
    | empty => exact skip rfl rfl
    | tomb => exact skip rfl rfl
    | full e =>
      right
      exact ⟨0, ⟨hh, .full e⟩, e, rfl, rfl, rfl, by simp [ents_full]⟩

theorem visitFrom_spec (t : Table E) (hl : t.buckets.length = t.nb) : ∀ (fuel i : Nat), t.nb - i ≤ fuel → i ≤ t.nb →
    visitFrom t fuel (scanFull (t.buckets.drop i) i) = .ok (ents (t.buckets.drop i)) := by
  intro fuel
  induction fuel with
  | zero =>
    intro i hf hi
    have hd : t.buckets.drop i = [] := List.drop_eq_nil_of_le (by omega)
    rw [hd]; rfl
  | succ fuel ih =>
    intro i hf hi
    rcases scanFull_spec (t.buckets.drop i) i with ⟨h1, h2⟩ | ⟨d, b, e, h1, h2, h3, h4⟩
    · rw [h1, h2]; rfl
    · rw [h1, h4]
      rw [List.getElem?_drop] at h2
      have hlt := lt_of_get h2
      obtain ⟨hh, s⟩ := b
      simp only at h3
      subst h3
      have htk : t.buckets.take t.nb = t.buckets := by rw [← hl, List.take_length]
      have := ih (i + d + 1) (by omega) (by omega)
      simp only [visitFrom, getEntry, h2, Res.ok_bind, advance, if_pos (by omega : i + d < t.nb), htk, this, List.drop_drop]
      rw [show i + (d + 1) = i + d + 1 by omega]

theorem visit_spec {hash : K → UInt32} {keyOf : E → Option K} {t : Table E} (G : Good hash keyOf t) :
    visit t = .ok t.entries := by
  rcases G with rfl | W
  · rfl
  · have h0 := visitFrom_spec t W.len t.nb 0 (by omega) (by omega)
    simp only [List.drop_zero] at h0
    unfold visit begin_
    by_cases hne : t.ne = 0
    · have : t.entries = [] := by rw [← List.length_eq_zero_iff, ← W.ne_eq]; exact hne
      rw [if_pos hne, this]; cases t.nb <;> rfl
    · rw [if_neg hne]
      rcases scanFull_spec t.buckets 0 with ⟨h1, h2⟩ | ⟨d, b, e, h1, h2, h3, h4⟩
      · exfalso; apply hne; rw [W.ne_eq, entries_eq, h2]; rfl
      · rw [h1] at h0 ⊢
        simp only [Res.ok_bind]
        exact h0

/-! ### empty buckets have hash field 0 -/

/-- empty buckets keep the zero hash of `calloc` -/
def EZ (bs : List (Bucket E)) : Prop := ∀ (i : Nat) (b : Bucket E), bs[i]? = some b → b.slot = .empty → b.hash = 0

theorem EZ.set {bs bs' : List (Bucket E)} {i : Nat} {b : Bucket E} (z : EZ bs)
    (hs : ∀ j, j ≠ i → bs'[j]? = bs[j]?) (hb : b.slot ≠ .empty) : EZ (bs'.set i b) := by
  intro j b2 hj he
  by_cases hji : j = i
  · subst hji
    rw [List.getElem?_set_self (by have := lt_of_get hj; simpa using this)] at hj
    rw [← Option.some.inj hj] at he
    exact absurd he hb
  · rw [List.getElem?_set_ne (by omega)] at hj
    rw [hs j hji] at hj
    exact z j b2 hj he

theorem EZ.replicate (n : Nat) : EZ (List.replicate n (Bucket.zero : Bucket E)) := by
  intro i b hi _
  have := List.mem_of_getElem? hi
  rw [List.eq_of_mem_replicate this]; rfl

theorem lookupLoop_frame {keyOf : E → Option K} {bs : List (Bucket E)} {nb : Nat} {hv : UInt32} {k : K} :
    ∀ (fuel i : Nat) (ft : Option Nat) bs' j, lookupLoop keyOf bs nb hv k fuel i ft = .ok (bs', j) →
    ∀ j', j' ≠ j → bs'[j']? = bs[j']? := by
  intro fuel
  induction fuel with
  | zero => intro i ft bs' j h; simp [lookupLoop] at h
  | succ fuel ih =>
    intro i ft bs' j h j' hj'
    unfold lookupLoop at h
    split at h
    · cases h
    · rename_i b hb
      split at h
      · split at h
        · split at h
          · split at h
            · simp at h
              obtain ⟨rfl, rfl⟩ := h
              rw [List.getElem?_set_ne (by omega)]
            · cases h
          · cases h
        · simp at h
          obtain ⟨rfl, rfl⟩ := h
          rw [List.getElem?_set_ne (by omega)]
      · exact ih _ _ _ _ h j' hj'
      · split at h
        · split at h
          · cases h
          · split at h
            · simp at h
              obtain ⟨rfl, rfl⟩ := h
              rfl
            · exact ih _ _ _ _ h j' hj'
        · exact ih _ _ _ _ h j' hj'

theorem rehashInto_ez {n : Nat} : ∀ (bs acc r : List (Bucket E)), EZ acc → rehashInto n bs acc = .ok r → EZ r := by
  intro bs
  induction bs with
  | nil => intro acc r z h; simp [rehashInto] at h; rw [← h]; exact z
  | cons b bs ih =>
    intro acc r z h
    unfold rehashInto at h
    split at h
    · split at h
      · cases h
      · rw [Res.bind_eq_ok] at h
        obtain ⟨i, _, h⟩ := h
        exact ih _ _ (z.set (fun _ _ => rfl) (by simp)) h
    · exact ih _ _ z h

theorem doRehash_ez {t t' : Table E} {n : Nat} (h : doRehash t n = .ok t') : EZ t'.buckets := by
  unfold doRehash at h
  split at h
  · cases h
  · rw [Res.bind_eq_ok] at h
    obtain ⟨r, h1, h2⟩ := h
    simp at h2
    rw [← h2]
    exact rehashInto_ez _ _ _ (EZ.replicate n) h1

theorem mayRehash_ez {t t' : Table E} (z : EZ t.buckets) (h : mayRehash t = .ok t') : EZ t'.buckets := by
  unfold mayRehash at h
  split at h
  · exact doRehash_ez h
  · split at h
    · exact doRehash_ez h
    · simp at h; rw [← h]; exact z

theorem initTable_ez (n : Nat) : EZ (initTable n : Table E).buckets := EZ.replicate _

theorem new_ez (n : Nat) : EZ (Table.new n : Table E).buckets := by
  unfold Table.new
  split
  · exact initTable_ez _
  · intro i b h; simp [Table.null] at h

theorem null_ez : EZ (Table.null : Table E).buckets := by
  intro i b h; simp [Table.null] at h

theorem insertE_ez {hash : K → UInt32} {keyOf : E → Option K} {t t' : Table E} {k : K} {mk : E} {i : Nat} {ex : Bool}
    (z : EZ t.buckets) (h : insertE hash keyOf t k mk = .ok (t', i, ex)) : EZ t'.buckets := by
  unfold insertE lookupBucketFor at h
  have z0 : EZ (if t.init = false then initTable 16 else t).buckets := by
    split
    · exact initTable_ez _
    · exact z
  generalize (if t.init = false then initTable 16 else t) = t0 at h z0
  simp only at h
  split at h
  · cases h
  · rw [Res.bind_eq_ok] at h
    obtain ⟨⟨t1, j⟩, h1, h⟩ := h
    rw [Res.bind_eq_ok] at h1
    obtain ⟨⟨bs1, j1⟩, h2, h1⟩ := h1
    simp at h1
    obtain ⟨rfl, rfl⟩ := h1
    have fr := lookupLoop_frame _ _ _ _ _ h2
    simp only at h
    split at h
    · cases h
    · rename_i b hb
      split at h
      · rename_i e he
        simp at h
        obtain ⟨rfl, _, _⟩ := h
        intro j b2 hj hemp
        by_cases hji : j = j1
        · subst hji
          rw [hb] at hj
          rw [← Option.some.inj hj, he] at hemp
          cases hemp
        · simp only at hj
          rw [fr j hji] at hj
          exact z0 j b2 hj hemp
      · rw [Res.bind_eq_ok] at h
        obtain ⟨t2, h3, h⟩ := h
        simp at h
        obtain ⟨rfl, _, _⟩ := h
        exact mayRehash_ez (z0.set fr (by simp)) h3

theorem eraseE_ez {hash : K → UInt32} {keyOf : E → Option K} {t t' : Table E} {k : K} {r : Option E}
    (z : EZ t.buckets) (h : eraseE hash keyOf t k = .ok (t', r)) : EZ t'.buckets := by
  unfold eraseE at h
  rw [Res.bind_eq_ok] at h
  obtain ⟨o, h1, h⟩ := h
  split at h
  · simp at h; rw [← h.1]; exact z
  · split at h
    · split at h
      · cases h
      · split at h
        · rw [Res.bind_eq_ok] at h
          obtain ⟨t2, h3, h⟩ := h
          simp at h
          obtain ⟨rfl, _⟩ := h
          exact mayRehash_ez (z.set (fun _ _ => rfl) (by simp)) h3
        · cases h
    · cases h

theorem insert_ez {hash : K → UInt32} {dflt : V} {h h' : Heap K V} {t t' : Table Nat} {k : K} {p : Nat} {ex : Bool}
    (z : EZ t.buckets) (hi : insert hash dflt h t k = .ok (h', t', p, ex)) : EZ t'.buckets := by
  unfold insert at hi
  simp only [Heap.alloc] at hi
  rw [Res.bind_eq_ok] at hi
  obtain ⟨⟨t2, i, b⟩, he, hrest⟩ := hi
  have L2 := insertE_ez z he
  simp only at hrest
  cases b
  · simp at hrest; rw [← hrest.2.1]; exact L2
  · simp only [if_true] at hrest
    split at hrest
    · simp at hrest; rw [← hrest.2.1]; exact L2
    · cases hrest

theorem step_ez {hash : K → UInt32} {dflt : V} {h h' : Heap K V} {t t' : Table Nat} {op : TOp K V} {r : TRet V}
    (z : EZ t.buckets) (hs : step hash dflt h t op = .ok (h', t', r)) : EZ t'.buckets := by
  cases op with
  | insert k =>
    simp only [step] at hs
    rw [Res.bind_eq_ok] at hs
    obtain ⟨⟨h2, t2, p, ex⟩, he, hr⟩ := hs
    simp only at hr
    rw [Res.bind_eq_ok] at hr
    obtain ⟨v, _, hr⟩ := hr
    simp at hr
    rw [← hr.2.1]; exact insert_ez z he
  | assign k v =>
    simp only [step, assign] at hs
    rw [Res.bind_eq_ok] at hs
    obtain ⟨⟨h2, t2, p, ex⟩, he, hr⟩ := hs
    rw [Res.bind_eq_ok] at he
    obtain ⟨⟨h3, t3, p3, ex3⟩, he3, hr3⟩ := he
    simp only at hr hr3
    rw [Res.bind_eq_ok] at hr hr3
    obtain ⟨v, _, hr⟩ := hr
    obtain ⟨v, _, hr3⟩ := hr3
    simp at hr hr3
    rw [← hr.2.1, ← hr3.2.1]; exact insert_ez z he3
  | erase k =>
    simp only [step, erase] at hs
    rw [Res.bind_eq_ok] at hs
    obtain ⟨⟨h2, t2, b⟩, he, hr⟩ := hs
    rw [Res.bind_eq_ok] at he
    obtain ⟨⟨t3, r3⟩, he3, hr3⟩ := he
    have := eraseE_ez z he3
    simp at hr
    rw [← hr.2.1]
    simp only at hr3
    split at hr3
    · simp at hr3; rw [← hr3.2.1]; exact this
    · rw [Res.bind_eq_ok] at hr3
      obtain ⟨_, _, hr3⟩ := hr3
      simp at hr3; rw [← hr3.2.1]; exact this
  | find k =>
    simp only [step] at hs
    rw [Res.bind_eq_ok] at hs
    obtain ⟨_, _, hr⟩ := hs
    simp at hr
    rw [← hr.2.1]; exact z
  | clear =>
    simp only [step, clear] at hs
    split at hs
    · simp at hs; rw [← hs.2.1]; exact z
    · rw [Res.bind_eq_ok] at hs
      obtain ⟨⟨h2, t2⟩, he, hr⟩ := hs
      rw [Res.bind_eq_ok] at he
      obtain ⟨h3, _, hr3⟩ := he
      simp at hr hr3
      rw [← hr.2.1, ← hr3.2]; exact null_ez
  | rehash =>
    simp only [step] at hs
    rw [Res.bind_eq_ok] at hs
    obtain ⟨t2, he, hr⟩ := hs
    simp at hr
    rw [← hr.2.1]; exact mayRehash_ez z he
  | rehashN n =>
    simp only [step] at hs
    rw [Res.bind_eq_ok] at hs
    obtain ⟨t2, he, hr⟩ := hs
    simp at hr
    rw [← hr.2.1]; exact doRehash_ez he

theorem runOps_ez {hash : K → UInt32} {dflt : V} : ∀ (ops : List (TOp K V)) (h : Heap K V) (t : Table Nat), EZ t.buckets →
    ∀ h' t' rs, runOps hash dflt h t ops = .ok (h', t', rs) → EZ t'.buckets := by
  intro ops
  induction ops with
  | nil =>
    intro h t z h' t' rs hr
    simp [runOps] at hr
    rw [← hr.2.1]; exact z
  | cons op ops ih =>
    intro h t z h' t' rs hr
    simp only [runOps] at hr
    rw [Res.bind_eq_ok] at hr
    obtain ⟨⟨h1, t1, r1⟩, e1, hr⟩ := hr
    rw [Res.bind_eq_ok] at hr
    obtain ⟨⟨h2, t2, rs2⟩, he, hr2⟩ := hr
    simp at hr2
    rw [← hr2.2.1]
    exact ih h1 t1 (step_ez z e1) h2 t2 rs2 he

end HashTable
end Eni
