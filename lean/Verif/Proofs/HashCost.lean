import Verif.Model.HashCost
import Verif.Proofs.HashHistory
import Mathlib.Tactic.Ring
import Mathlib.Tactic.Linarith
/-!
# The work done by rehashing

Helper lemmas, no property statements.
-/
set_option linter.unusedSectionVars false
set_option linter.unusedVariables false

namespace Eni
open Spec
variable {E K V : Type} [DecidableEq K]

namespace Table

/-! ### The count does not change the results -/

theorem rehashIntoC_eq (n : Nat) : ∀ (old acc : List (Bucket E)),
    rehashIntoC n old acc = (rehashInto n old acc >>= fun r => .ok (r, (ents old).length)) := by
  intro old
  induction old with
  | nil => intro acc; rfl
  | cons b old ih =>
    intro acc
    obtain ⟨bh, bsl⟩ := b
    unfold rehashIntoC rehashInto
    cases bsl with
    | empty => simp only [ih, ents_empty]
    | tomb => simp only [ih, ents_tomb]
    | full e =>
      simp only [ents_full, List.length_cons]
      split
      · rfl
      · cases placeLoop acc n (n + 1) (bh.toNat % n) with
        | ok i =>
          simp only [Res.ok_bind, ih]
          cases rehashInto n old (acc.set i ⟨bh, .full e⟩) <;> rfl
        | _ => rfl

theorem doRehashC_eq (t : Table E) (n : Nat) :
    doRehashC t n = (doRehash t n >>= fun t' => .ok (t', (ents (t.buckets.take t.nb)).length)) := by
  unfold doRehashC doRehash
  split
  · rfl
  · rw [rehashIntoC_eq]
    cases rehashInto n (t.buckets.take t.nb) (List.replicate n Bucket.zero) <;> rfl

theorem mayRehashC_fst (t : Table E) : mayRehash t = (mayRehashC t >>= fun x => .ok x.1) := by
  unfold mayRehash mayRehashC
  split
  · rw [doRehashC_eq]; cases doRehash t (computeBucketSize t.nb) <;> rfl
  · split
    · rw [doRehashC_eq]; cases doRehash t t.nb <;> rfl
    · rfl

theorem insertEC_fst (hash : K → UInt32) (keyOf : E → Option K) (t : Table E) (k : K) (mk : E) :
    insertE hash keyOf t k mk = (insertEC hash keyOf t k mk >>= fun x => .ok x.1) := by
  unfold insertE insertEC
  cases lookupBucketFor hash keyOf t k with
  | ok x =>
    obtain ⟨t, i⟩ := x
    simp only [Res.ok_bind]
    cases t.buckets[i]? with
    | none => rfl
    | some b =>
      obtain ⟨bh, bsl⟩ := b
      cases bsl with
      | full e => rfl
      | empty =>
        simp only [mayRehashC_fst]
        generalize mayRehashC _ = z
        cases z <;> rfl
      | tomb =>
        simp only [mayRehashC_fst]
        generalize mayRehashC _ = z
        cases z <;> rfl
  | _ => rfl

theorem eraseEC_fst (hash : K → UInt32) (keyOf : E → Option K) (t : Table E) (k : K) :
    eraseE hash keyOf t k = (eraseEC hash keyOf t k >>= fun x => .ok x.1) := by
  unfold eraseE eraseEC
  cases findKey hash keyOf t k with
  | ok x =>
    cases x with
    | none => rfl
    | some i =>
      simp only [Res.ok_bind]
      split
      · cases t.buckets[i]? with
        | none => rfl
        | some b =>
          obtain ⟨bh, bsl⟩ := b
          cases bsl with
          | full e =>
            simp only [mayRehashC_fst]
            generalize mayRehashC _ = z
            cases z <;> rfl
          | _ => rfl
      · rfl
  | _ => rfl

/-! ### What one rehash costs -/

/-- counters before and after `mayRehash`, and the moves -/
inductive Cost (nb ne nt : Nat) : Nat → Nat → Nat → Nat → Prop
  | none (h1 : 4 * ne ≤ 3 * nb) (h2 : nb ≤ w32 ((nb - (ne + nt)) * 8)) : Cost nb ne nt nb ne nt 0
  | same (h1 : 4 * ne ≤ 3 * nb) (h2 : w32 ((nb - (ne + nt)) * 8) < nb) : Cost nb ne nt nb ne 0 ne
  | grow (h1 : 3 * nb < 4 * ne) : Cost nb ne nt (computeBucketSize nb) ne 0 ne

theorem mayRehashC_cost {hash : K → UInt32} {keyOf : E → Option K} {u t' : Table E} {c : Nat} (W : WF1 hash keyOf u)
    (hne : u.ne ≤ 1073643498) (h : mayRehashC u = .ok (t', c)) : Cost u.nb u.ne u.nt t'.nb t'.ne t'.nt c := by
  have hs := W.small
  have hr := W.room
  have hp := W.pos
  have hents : (ents (u.buckets.take u.nb)).length = u.ne := by
    rw [List.take_of_length_le (by rw [W.len]), W.ne_eq, entries_eq]
  unfold mayRehashC at h
  rw [w32_of_lt (by omega : u.ne * 4 < _), w32_of_lt (by omega : u.nb * 3 < _), w32_of_lt (by omega : u.ne + u.nt < _),
    sub32_of_le (by omega) (by omega)] at h
  have hw : w32 ((u.nb - (u.ne + u.nt)) * 8) ≤ (u.nb - (u.ne + u.nt)) * 8 := Nat.mod_le _ _
  have hb := computeBucketSize_bounds u.nb (by omega)
  split at h
  · rename_i hg
    obtain ⟨t2, h1, h2, h3, h4, h5, h6, h7, h8, h9, h10⟩ := doRehash_spec W.len W.lay W.ne_eq (n := computeBucketSize u.nb) (by omega)
    rw [doRehashC_eq, h1, Res.ok_bind, hents] at h
    cases h
    rw [h3, h7, h9]
    exact .grow (by omega)
  · split at h
    · rename_i hg h'
      obtain ⟨t2, h1, h2, h3, h4, h5, h6, h7, h8, h9, h10⟩ := doRehash_spec W.len W.lay W.ne_eq (n := u.nb) (by omega)
      rw [doRehashC_eq, h1, Res.ok_bind, hents] at h
      cases h
      rw [h3, h7, h9]
      exact .same (by omega) h'
    · cases h
      exact .none (by omega) (by omega)

/-! ### The states in which `mayRehash` is called -/

/-- insertion of an absent key: the state before `mayRehash` -/
theorem insertEC_absent {hash : K → UInt32} {keyOf : E → Option K} {t : Table E} (G : Good hash keyOf t)
    (hne : t.ne < 1073643498) (k : K) (mk : E) :
    (∃ i, insertEC hash keyOf t k mk = .ok ((t, i, true), 0)) ∨
    ((∀ e ∈ t.entries, keyOf e ≠ some k) ∧ ∀ (keyOf' : E → Option K), (∀ e ∈ t.entries, keyOf' e = keyOf e) →
      keyOf' mk = some k → ∃ i t0 u, insertEC hash keyOf t k mk = (mayRehashC u >>= fun x => .ok ((x.1, i, false), x.2)) ∧
        (t0 = t ∨ (t = null ∧ t0 = initTable 16)) ∧ WF1 hash keyOf' u ∧ u.nb = t0.nb ∧ u.ne = t0.ne + 1 ∧
        u.nt ≤ t0.nt) := by
  obtain ⟨t0, ht0, W, hent, hne0⟩ : ∃ t0 : Table E, (if t.init = false then initTable 16 else t) = t0 ∧ WF hash keyOf t0 ∧
      t0.entries = t.entries ∧ ((t0 = t ∨ (t = null ∧ t0 = initTable 16)) ∧ t0.ne = t.ne) := by
    rcases G with rfl | W
    · refine ⟨initTable 16, rfl, (initTable_wf hash keyOf (by omega)).1, ?_, Or.inr ⟨rfl, rfl⟩, rfl⟩
      rw [(initTable_wf hash keyOf (by omega)).2]; rfl
    · exact ⟨t, by rw [if_neg (by simp [W.init])], W, rfl, Or.inl rfl, rfl⟩
  have hr := W.room
  have hroom : (ents t0.buckets).length + tmb t0.buckets < t0.buckets.length := by
    have h1 := W.ne_eq; have h2 := W.nt_eq; rw [entries_eq] at h1; rw [tombs_eq] at h2; rw [W.len]; omega
  have hsm := W.small
  have hlen := W.len
  rcases W.lay.lookupLoop_spec hroom (by omega) k with ⟨i, b, e, h, hi, hs, hk⟩ | ⟨hno, j, b, hj, hfree, hreach, h⟩
  · left
    have hinit : t0 = t := by
      rcases hne0.1 with h1 | ⟨_, h1⟩
      · exact h1
      · exfalso
        have : e ∈ t0.entries := mem_ents.mpr ⟨i, b, hi, hs⟩
        rw [h1, (initTable_wf hash keyOf (by omega)).2] at this
        exact absurd this (by simp)
    subst hinit
    refine ⟨i, ?_⟩
    rw [hlen] at h
    simp only [insertEC, lookupBucketFor, ht0, if_neg (by omega : ¬ t0.nb = 0), h, Res.ok_bind, hi, hs]
  · right
    rw [← entries_eq, hent] at hno
    refine ⟨hno, fun keyOf' hcong hmk => ?_⟩
    have hcong0 : ∀ e ∈ t0.entries, keyOf' e = keyOf e := by rw [hent]; exact hcong
    have W' := W.congr hcong0
    have hno' : ∀ e ∈ ents t0.buckets, keyOf' e ≠ some k := by
      intro e he; rw [hcong0 e he]; exact hno e (by rw [← hent]; exact he)
    have hse : slotEntry b = none := by rcases hfree with h | h <;> simp [slotEntry, h]
    obtain ⟨L', hp⟩ := W'.lay.insert hj hse hreach hno' hmk
    have hjl := lt_of_get hj
    have hset2 : (t0.buckets.set j { b with hash := hash k })[j]? = some { b with hash := hash k } := by
      rw [List.getElem?_set_self hjl]
    have hne_eq := W.ne_eq
    have hnt_eq := W.nt_eq
    rw [entries_eq] at hne_eq
    rw [tombs_eq] at hnt_eq
    have hplen := hp.length_eq
    simp only [List.length_cons] at hplen
    have ht := tmb_set (b' := ⟨hash k, .full mk⟩) hj
    rw [hlen] at h
    have fin : ∀ nt, nt = tmb (t0.buckets.set j ⟨hash k, .full mk⟩) → nt ≤ t0.nt →
          WF1 hash keyOf' (⟨t0.init, t0.buckets.set j ⟨hash k, .full mk⟩, t0.nb, w32 (t0.ne + 1), nt⟩ : Table E) := by
      intro nt hnt hle
      rw [w32_of_lt (by omega)]
      refine ⟨W.init, by simpa using hlen, L', ?_, ?_, by simp only; omega, by simp only; omega, hsm⟩
      · simp only [entries_eq]; omega
      · simp only [tombs_eq]; exact hnt
    rcases hfree with hb | hb
    · have ht2 : tmb (t0.buckets.set j ⟨hash k, .full mk⟩) = tmb t0.buckets := by
        have e1 : isTomb b = false := by simp [isTomb, hb]
        have e2 : isTomb (⟨hash k, .full mk⟩ : Bucket E) = false := rfl
        rw [e1, e2] at ht; simpa using ht
      rw [hb] at hset2 h
      refine ⟨j, t0, _, ?_, hne0.1, fin t0.nt (by rw [hnt_eq]; exact ht2.symm) (by omega), rfl, by simp only; rw [w32_of_lt (by omega)], le_refl _⟩
      simp only [insertEC, lookupBucketFor, ht0, if_neg (by omega : ¬ t0.nb = 0), h, Res.ok_bind, hset2, List.set_set]
    · have ht2 : tmb (t0.buckets.set j ⟨hash k, .full mk⟩) + 1 = tmb t0.buckets := by
        have e1 : isTomb b = true := by simp [isTomb, hb]
        have e2 : isTomb (⟨hash k, .full mk⟩ : Bucket E) = false := rfl
        rw [e1, e2] at ht; simpa using ht
      rw [hb] at hset2 h
      have hpos : 1 ≤ t0.nt := by omega
      have hsub : sub32 t0.nt 1 = t0.nt - 1 := sub32_of_le hpos (by omega)
      refine ⟨j, t0, _, ?_, hne0.1, fin (sub32 t0.nt 1) (by rw [hsub]; omega) (by omega), rfl, by simp only; rw [w32_of_lt (by omega)],
        by simp only; omega⟩
      simp only [insertEC, lookupBucketFor, ht0, if_neg (by omega : ¬ t0.nb = 0), h, Res.ok_bind, hset2, List.set_set]

/-- removal: the state before `mayRehash` -/
theorem eraseEC_spec {hash : K → UInt32} {keyOf : E → Option K} {t : Table E} (G : Good hash keyOf t)
    (hne : t.ne ≤ 1073643498) (k : K) :
    eraseEC hash keyOf t k = .ok ((t, none), 0) ∨
    (∃ e u, eraseEC hash keyOf t k = (mayRehashC u >>= fun x => .ok ((x.1, some e), x.2)) ∧
      WF1 hash keyOf u ∧ u.nb = t.nb ∧ u.ne + 1 = t.ne ∧ u.nt = t.nt + 1) := by
  rcases G with rfl | W
  · left; rfl
  · rcases W.findKey_spec k with ⟨h, hno⟩ | ⟨i, b, e, h, hi, hs, hk⟩
    · left; simp [eraseEC, h]
    · right
      have hil := lt_of_get hi
      have hl := W.len
      have hsm := W.small
      have hroom := W.room
      obtain ⟨L', hp⟩ := W.lay.erase hi hs
      have hne_eq := W.ne_eq
      have hnt_eq := W.nt_eq
      rw [entries_eq] at hne_eq
      rw [tombs_eq] at hnt_eq
      have hlen := hp.length_eq
      simp only [List.length_cons] at hlen
      have hnepos : 1 ≤ t.ne := by omega
      have ht := tmb_set (b' := { b with slot := .tomb }) hi
      simp only [isTomb, hs] at ht
      simp at ht
      have W1 : WF1 hash keyOf { t with buckets := t.buckets.set i { b with slot := .tomb }, ne := sub32 t.ne 1, nt := w32 (t.nt + 1) } := by
        rw [sub32_of_le hnepos (by omega), w32_of_lt (by omega)]
        refine ⟨W.init, by simpa using hl, L', ?_, ?_, by simp only; omega, by simp only; omega, hsm⟩
        · simp only [entries_eq]; omega
        · simp only [tombs_eq]; simp only [tmb] at ht hnt_eq ⊢; omega
      have hsub : sub32 t.ne 1 = t.ne - 1 := sub32_of_le hnepos (by omega)
      refine ⟨e, _, ?_, W1, rfl, by simp only [hsub]; omega, by simp only; rw [w32_of_lt (by omega)]⟩
      simp only [eraseEC, h, Res.ok_bind, if_pos (by omega : i < 2147483648), hi, hs]

end Table

namespace HashTable
open Table
variable {hash : K → UInt32} {dflt : V} {h : Heap K V} {t : Table Nat} {m : FMap K V}

theorem insertC_fst (hash : K → UInt32) (dflt : V) (h : Heap K V) (t : Table Nat) (k : K) :
    insert hash dflt h t k = (insertC hash dflt h t k >>= fun x => .ok x.1) := by
  unfold insert insertC
  simp only [Heap.alloc, insertEC_fst]
  cases insertEC hash h.keyOf t k h.next with
  | ok x =>
    obtain ⟨⟨t', i, ex⟩, c⟩ := x
    simp only [Res.ok_bind]
    cases ex
    · rfl
    · simp only [if_true]
      cases t'.buckets[i]? with
      | none => rfl
      | some b =>
        obtain ⟨bh, bsl⟩ := b
        cases bsl <;> rfl
  | _ => rfl

theorem stepC_fst (hash : K → UInt32) (dflt : V) (h : Heap K V) (t : Table Nat) (op : TOp K V) :
    step hash dflt h t op = (stepC hash dflt h t op >>= fun x => .ok x.1) := by
  cases op with
  | insert k =>
    simp only [step, stepC, insertC_fst]
    cases insertC hash dflt h t k with
    | ok x =>
      obtain ⟨⟨h', t', p, ex⟩, c⟩ := x
      simp only [Res.ok_bind]
      cases h'.getVal p <;> rfl
    | _ => rfl
  | assign k v =>
    simp only [step, stepC, assign, insertC_fst]
    cases insertC hash dflt h t k with
    | ok x =>
      obtain ⟨⟨h', t', p, ex⟩, c⟩ := x
      simp only [Res.ok_bind]
      cases h'.setVal p v with
      | ok h2 =>
        simp only [Res.ok_bind]
        cases h2.getVal p <;> rfl
      | _ => rfl
    | _ => rfl
  | erase k =>
    simp only [step, stepC, erase, eraseEC_fst]
    cases eraseEC hash h.keyOf t k with
    | ok x =>
      obtain ⟨⟨t', r⟩, c⟩ := x
      simp only [Res.ok_bind]
      cases r with
      | none => rfl
      | some p =>
        simp only
        cases h.free p <;> rfl
    | _ => rfl
  | find k =>
    simp only [step, stepC]
    cases lookup hash h t k <;> rfl
  | clear =>
    simp only [step, stepC]
    cases clear h t <;> rfl
  | rehash =>
    simp only [step, stepC, rehash, mayRehashC_fst]
    cases mayRehashC t <;> rfl
  | rehashN n =>
    simp only [step, stepC, rehashN, doRehashC_eq]
    cases doRehash t (w32 n) <;> rfl

theorem runOpsC_fst (hash : K → UInt32) (dflt : V) : ∀ (ops : List (TOp K V)) (h : Heap K V) (t : Table Nat),
    runOps hash dflt h t ops = (runOpsC hash dflt h t ops >>= fun x => .ok x.1) := by
  intro ops
  induction ops with
  | nil => intro h t; rfl
  | cons op ops ih =>
    intro h t
    simp only [runOps, runOpsC, stepC_fst]
    cases stepC hash dflt h t op with
    | ok x =>
      obtain ⟨⟨h', t', r⟩, c⟩ := x
      simp only [Res.ok_bind, ih]
      cases runOpsC hash dflt h' t' ops <;> rfl
    | _ => rfl

/-! ### One operation in terms of the counters -/

/-- how one operation (not `rehash(n)`) changes the counters -/
inductive Delta (op : TOp K V) (t : Table Nat) (t' : Table Nat) (c : Nat) : Prop
  | skip (h : t' = t) (hc : c = 0)
  | clear (hop : op = .clear) (h : t' = Table.null) (hc : c = 0)
  | work (nb ne nt u : Nat) (h0 : (nb = t.nb ∧ u = t.ne + t.nt) ∨ (t = Table.null ∧ nb = 17 ∧ u = 0)) (hs : SizeOk nb)
      (hnb : nb ≤ 1431655765) (h1 : ne ≤ t.ne + 1) (h2 : ne + nt ≤ u + 1) (h3 : 4 * ne ≤ 3 * nb + 4) (h4 : ne + nt ≤ nb)
      (hc : Cost nb ne nt t'.nb t'.ne t'.nt c)

theorem insertC_delta (R : TRel hash h t m) (F : h.Fresh) (hm : m.length < 1073643498) (L : Load t) {k : K} (op : TOp K V) {h' t' p ex c}
    (hi : insertC hash dflt h t k = .ok ((h', t', p, ex), c)) : Delta op t t' c := by
  have hne := R.ne_eq
  unfold insertC at hi
  simp only [Heap.alloc] at hi
  obtain ⟨⟨⟨t2, i, b⟩, c2⟩, he, hrest⟩ := Res.bind_eq_ok.mp hi
  simp only at hrest
  have hfin : t' = t2 ∧ c = c2 := by
    cases b
    · simp at hrest; exact ⟨hrest.1.2.1.symm, hrest.2.symm⟩
    · simp only [if_true] at hrest
      split at hrest
      · simp at hrest; exact ⟨hrest.1.2.1.symm, hrest.2.symm⟩
      · cases hrest
  obtain ⟨rfl, rfl⟩ := hfin
  rcases insertEC_absent R.good (by omega) k h.next with ⟨i2, hins⟩ | ⟨hno, hins⟩
  · rw [hins] at he
    cases he
    exact .skip rfl rfl
  · have hmem : h.next ∉ t.entries := fun hm => by have := R.lt_next F hm; omega
    obtain ⟨i3, t0, u, h1, h2, h3, h4, h5, h6⟩ :=
      hins (fun e => if e = h.next then some k else h.keyOf e)
        (by intro e he; rw [if_neg]; rintro rfl; exact hmem he) (by simp)
    rw [h1] at he
    obtain ⟨⟨t3, c3⟩, e1, e2⟩ := Res.bind_eq_ok.mp he
    cases e2
    have hpos := h3.pos
    have hsm := h3.small
    have hroom := h3.room
    have hc := mayRehashC_cost h3 (by rcases h2 with rfl | ⟨rfl, rfl⟩ <;> simp_all [initTable]; omega) e1
    rcases h2 with rfl | ⟨rfl, rfl⟩
    · rcases L with rfl | ⟨l1, l2, l3⟩
      · rw [h4] at hpos; simp [Table.null] at hpos
      · rw [h4] at hc
        exact .work t0.nb u.ne u.nt (t0.ne + t0.nt) (Or.inl ⟨rfl, rfl⟩) l1 (by omega) (by omega) (by omega) (by omega) (by omega) hc
    · have hnb : (initTable 16 : Table Nat).nb = 17 := by decide
      have hn0 : (initTable 16 : Table Nat).ne = 0 := rfl
      have ht0 : (initTable 16 : Table Nat).nt = 0 := rfl
      rw [hnb] at h4
      rw [hn0] at h5
      rw [ht0] at h6
      rw [h4] at hc
      exact .work 17 u.ne u.nt 0 (Or.inr ⟨rfl, rfl, rfl⟩) (Or.inl (by decide)) (by omega) (by omega) (by omega) (by omega) (by omega) hc

theorem stepC_delta (R : TRel hash h t m) (F : h.Fresh) (hm : m.length ≤ 1073643498) (op : TOp K V) (hp : TPre m op)
    (hno : NoRehashN op) (L : Load t) {h' t' r c} (hs : stepC hash dflt h t op = .ok ((h', t', r), c)) : Delta op t t' c := by
  have hne := R.ne_eq
  cases op with
  | insert k =>
    simp only [stepC] at hs
    obtain ⟨⟨⟨h2, t2, p, ex⟩, c2⟩, he, hr⟩ := Res.bind_eq_ok.mp hs
    obtain ⟨v, _, hr⟩ := Res.bind_eq_ok.mp hr
    cases hr
    exact insertC_delta R F hp L _ he
  | assign k v =>
    simp only [stepC] at hs
    obtain ⟨⟨⟨h2, t2, p, ex⟩, c2⟩, he, hr⟩ := Res.bind_eq_ok.mp hs
    obtain ⟨h3, _, hr⟩ := Res.bind_eq_ok.mp hr
    obtain ⟨v, _, hr⟩ := Res.bind_eq_ok.mp hr
    cases hr
    exact insertC_delta R F hp L _ he
  | erase k =>
    simp only [stepC] at hs
    obtain ⟨⟨⟨t2, r2⟩, c2⟩, he, hr⟩ := Res.bind_eq_ok.mp hs
    have hfin : t' = t2 ∧ c = c2 := by
      cases r2 with
      | none => simp only at hr; cases hr; exact ⟨rfl, rfl⟩
      | some p =>
        simp only at hr
        obtain ⟨h3, _, hr⟩ := Res.bind_eq_ok.mp hr
        cases hr; exact ⟨rfl, rfl⟩
    obtain ⟨rfl, rfl⟩ := hfin
    rcases eraseEC_spec R.good (by omega) k with h1 | ⟨e, u, h1, W1, h6, h7, h8⟩
    · rw [h1] at he
      cases he
      exact .skip rfl rfl
    · rw [h1] at he
      obtain ⟨⟨t3, c3⟩, e1, e2⟩ := Res.bind_eq_ok.mp he
      cases e2
      have hpos := W1.pos
      have hsm := W1.small
      have hroom := W1.room
      have hc := mayRehashC_cost W1 (by omega) e1
      rcases L with rfl | ⟨l1, l2, l3⟩
      · rw [h6] at hpos; simp [Table.null] at hpos
      · rw [h6] at hc
        exact .work t.nb u.ne u.nt (t.ne + t.nt) (Or.inl ⟨rfl, rfl⟩) l1 (by omega) (by omega) (by omega) (by omega) (by omega) hc
  | find k =>
    simp only [stepC] at hs
    obtain ⟨_, _, hr⟩ := Res.bind_eq_ok.mp hs
    cases hr
    exact .skip rfl rfl
  | clear =>
    simp only [stepC, clear] at hs
    split at hs
    · cases hs; exact .skip rfl rfl
    · obtain ⟨⟨h2, t2⟩, he, hr⟩ := Res.bind_eq_ok.mp hs
      obtain ⟨h3, _, hr3⟩ := Res.bind_eq_ok.mp he
      cases hr
      cases hr3
      exact .clear rfl rfl rfl
  | rehash =>
    simp only [stepC] at hs
    obtain ⟨⟨t2, c2⟩, he, hr⟩ := Res.bind_eq_ok.mp hs
    cases hr
    rcases R.good with rfl | W
    · have : mayRehashC (Table.null : Table Nat) = .ok (Table.null, 0) := by
        simp [mayRehashC, Table.null, w32, sub32]
      rw [this] at he
      cases he
      exact .skip rfl rfl
    · have hsm := W.small
      have hroom := W.room
      have hc := mayRehashC_cost W.to1 (by omega) he
      rcases L with rfl | ⟨l1, l2, l3⟩
      · simp [Table.null] at hroom
      · exact .work t.nb t.ne t.nt (t.ne + t.nt) (Or.inl ⟨rfl, rfl⟩) l1 (by omega) (by omega) (by omega) (by omega) (by omega) hc
  | rehashN n => exact absurd hno (by simp [NoRehashN])

/-- an invariant of table and total cost along a history without `rehash(n)` -/
theorem runOpsC_inv (I : Table Nat → Nat → Nat → Prop) (good : TOp K V → Prop) (hg : ∀ op, good op → NoRehashN op) {N : Nat}
    (step : ∀ op t t' n M c, good op → n < N → t.nb ≤ 1431655765 → I t n M → Delta op t t' c → I t' (n + 1) (M + c)) :
    ∀ (ops : List (TOp K V)) (h : Heap K V) (t : Table Nat) (m : FMap K V) (n M : Nat), TRel hash h t m → h.Fresh →
    m.length ≤ 1073643498 → TPres dflt m ops → (∀ op ∈ ops, good op) → Load t → n + ops.length ≤ N → I t n M →
    ∃ h' t' c, runOpsC hash dflt h t ops = .ok ((h', t', (truns dflt m ops).2), c) ∧ I t' (n + ops.length) (M + c) ∧
      TRel hash h' t' (truns dflt m ops).1 ∧ Load t' := by
  intro ops
  induction ops with
  | nil => intro h t m n M R F hm hp hgo L hn hI; exact ⟨h, t, 0, rfl, hI, R, L⟩
  | cons op ops ih =>
    intro h t m n M R F hm hp hgo L hn hI
    simp only [List.length_cons] at hn
    obtain ⟨h1, t1, e1, R1, S1, K1⟩ := step_sim (dflt := dflt) R F hm op hp.1
    have L1 := step_load R F hm op hp.1 (hg _ (hgo _ List.mem_cons_self)) L e1
    rw [stepC_fst] at e1
    obtain ⟨⟨⟨h2, t2, r2⟩, c⟩, e2, e3⟩ := Res.bind_eq_ok.mp e1
    simp at e3
    obtain ⟨rfl, rfl, rfl⟩ := e3
    have hnb : t.nb ≤ 1431655765 := by
      rcases R.good with rfl | W
      · simp [Table.null]
      · exact W.small
    have D := stepC_delta R F hm op hp.1 (hg _ (hgo _ List.mem_cons_self)) L e2
    have hI2 := step op t t2 n M c (hgo _ List.mem_cons_self) (by omega) hnb hI D
    obtain ⟨h3, t3, c3, e4, hI3, R3, L3⟩ := ih h2 t2 _ (n + 1) (M + c) R1 S1.fresh (tstep_length R.functional hm op hp.1) hp.2
      (fun o ho => hgo o (List.mem_cons_of_mem _ ho)) L1 (by omega) hI2
    refine ⟨h3, t3, c + c3, ?_, ?_, R3, L3⟩
    · simp only [runOpsC, e2, Res.ok_bind, e4]
      rfl
    · simp only [List.length_cons]
      rw [show n + (ops.length + 1) = n + 1 + ops.length by omega, show M + (c + c3) = M + c + c3 by omega]
      exact hI3

/-! ### Sizes -/

theorem cbs_small {n : Nat} (h : n < 196613) : computeBucketSize n ≤ 196613 := by
  have hmax : ∀ s ∈ bucketSizes, s ≤ 196613 := by decide
  rcases computeBucketSizeFrom_cases n bucketSizes with ⟨_, h2⟩ | ⟨h1, _⟩
  · have := h2 196613 (by decide)
    omega
  · exact hmax _ h1

theorem cbs_large {n : Nat} (h : 196613 ≤ n) (h' : n < 4000000000) : computeBucketSize n = n + 131101 := by
  have hmax : ∀ s ∈ bucketSizes, s ≤ 196613 := by decide
  rcases computeBucketSizeFrom_cases n bucketSizes with ⟨h1, _⟩ | ⟨h1, h2⟩
  · rw [w32_of_lt (by omega)] at h1; exact h1
  · have := hmax _ h1
    omega

/-! ### Lower bound -/

/-- growth by a constant costs the square of the size -/
def Low (t : Table Nat) (_n M : Nat) : Prop := 3 * (t.nb - 196613) * (t.nb - 196613 + 262125) ≤ 1048808 * M

theorem low_step {op : TOp K V} {t t' : Table Nat} {n M c : Nat} (hop : op ≠ .clear) (hI : Low t n M) (D : Delta op t t' c) :
    Low t' (n + 1) (M + c) := by
  unfold Low at *
  cases D with
  | skip h hc => subst h hc; exact hI
  | clear h => exact absurd h hop
  | work nb ne nt u h0 hs hnb h1 h2 h3 h4 hc =>
    have hI' : 3 * (nb - 196613) * (nb - 196613 + 262125) ≤ 1048808 * M := by
      rcases h0 with ⟨h0, _⟩ | ⟨_, h0, _⟩
      · rw [h0]; exact hI
      · rw [h0]; simp
    generalize t'.nb = nb', t'.ne = ne', t'.nt = nt' at hc
    cases hc with
    | none => exact hI'
    | same => exact le_trans hI' (Nat.mul_le_mul_left _ (Nat.le_add_right _ _))
    | grow hg =>
      by_cases hb : nb < 196613
      · have := cbs_small hb
        rw [show computeBucketSize nb - 196613 = 0 by omega]
        simp
      · rw [cbs_large (by omega) (by omega)]
        obtain ⟨x, rfl⟩ : ∃ x, nb = 196613 + x := ⟨nb - 196613, by omega⟩
        rw [show 196613 + x + 131101 - 196613 = x + 131101 by omega]
        rw [show 196613 + x - 196613 = x by omega] at hI'
        nlinarith

theorem low_final {nb n M : Nat} (h : 3 * (nb - 196613) * (nb - 196613 + 262125) ≤ 1048808 * M) (hl : 4 * n ≤ 3 * nb) :
    n * n ≤ 196652 * (M + n) := by
  by_cases hn : n ≤ 196652
  · have := Nat.mul_le_mul_right n hn
    omega
  · obtain ⟨x, rfl⟩ : ∃ x, nb = 196613 + x := ⟨nb - 196613, by omega⟩
    rw [show 196613 + x - 196613 = x by omega] at h
    obtain ⟨z, rfl⟩ : ∃ z, n = 196652 + z := ⟨n - 196652, by omega⟩
    obtain ⟨y, hy⟩ : ∃ y, 3 * x = 196769 + 4 * z + y := ⟨3 * x - (196769 + 4 * z), by omega⟩
    have h1 : 9 * (x * x) = (196769 + 4 * z + y) * (196769 + 4 * z + y) := by rw [← hy]; ring
    have h2 : 0 ≤ z * y := Nat.zero_le _
    have h3 : 0 ≤ y * y := Nat.zero_le _
    have h4 : (196769 + 4 * z + y) * (196769 + 4 * z + y) =
      196769 * 196769 + 16 * (z * z) + y * y + 1574152 * z + 393538 * y + 8 * (z * y) := by ring
    have h5 : 3 * x * (x + 262125) = 3 * (x * x) + 786375 * x := by ring
    have h6 : (196652 + z) * (196652 + z) = 196652 * 196652 + 393304 * z + z * z := by ring
    rw [h5] at h
    rw [h6]
    rw [h4] at h1
    generalize x * x = xx, y * y = yy, z * z = zz, z * y = zy at *
    omega

/-! ### Upper bound -/

/-- entries moved (times 1048808) when leaving all sizes up to `p` -/
def leave (p : Nat) : Nat :=
  if p ≤ 196613 then 1048808 * ((bucketSizes.filter (· ≤ p)).map (fun s => 3 * s / 4 + 1)).sum
  else 3 * (p - 65512) * (p + 196613) + 8 * (p - 65512) + 1048808 * 332095

theorem leave_large {p : Nat} (h : 196613 < p) :
    leave p = 3 * (p - 65512) * (p + 196613) + 8 * (p - 65512) + 1048808 * 332095 := by
  unfold leave
  rw [if_neg (by omega)]

/-- one more growth -/
theorem leave_step {p : Nat} (hs : SizeOk p) (hp : p < 3000000000) :
    leave p + 1048808 * (3 * computeBucketSize p / 4 + 1) ≤ leave (computeBucketSize p) := by
  by_cases h : p < 196613
  · rcases hs with hs | hs
    · have : ∀ s ∈ bucketSizes, s < 196613 → leave s + 1048808 * (3 * computeBucketSize s / 4 + 1) ≤ leave (computeBucketSize s) := by
        decide
      exact this p hs h
    · omega
  · rw [cbs_large (by omega) (by omega), leave_large (p := p + 131101) (by omega)]
    have hd : 3 * (p + 131101) / 4 * 4 ≤ 3 * (p + 131101) := Nat.div_mul_le_self _ _
    have hle : leave p ≤ 3 * (p - 65512) * (p + 196613) + 8 * (p - 65512) + 1048808 * 332095 := by
      by_cases h2 : 196613 < p
      · rw [leave_large h2]
      · have : p = 196613 := by omega
        subst this
        decide
    refine le_trans (Nat.add_le_add_right hle _) ?_
    obtain ⟨y, rfl⟩ : ∃ y, p = 65512 + y := ⟨p - 65512, by omega⟩
    rw [show 65512 + y - 65512 = y by omega, show 65512 + y + 131101 - 65512 = y + 131101 by omega]
    generalize 3 * (65512 + y + 131101) / 4 = q at *
    nlinarith

/-- leaving the first size costs no more than `leave` says -/
theorem leave_first {p : Nat} (hs : SizeOk p) : 1048808 * (3 * p / 4 + 1) ≤ leave p := by
  by_cases h : p ≤ 196613
  · rcases hs with hs | hs
    · have : ∀ s ∈ bucketSizes, 1048808 * (3 * s / 4 + 1) ≤ leave s := by decide
      exact this p hs
    · omega
  · rw [leave_large (by omega)]
    have hd : 3 * p / 4 * 4 ≤ 3 * p := Nat.div_mul_le_self _ _
    obtain ⟨y, rfl⟩ : ∃ y, p = 65512 + y := ⟨p - 65512, by omega⟩
    rw [show 65512 + y - 65512 = y by omega]
    generalize 3 * (65512 + y) / 4 = q at *
    nlinarith

/-- growth in terms of the operations it takes -/
theorem leave_bound {p e : Nat} (hs : SizeOk p) (h : 3 * p < 4 * e) : 196650 * leave p ≤ 1048808 * (e * e + 4 * 196650 * e) := by
  by_cases h2 : p ≤ 196613
  · rcases hs with hs | hs
    · have : ∀ s ∈ bucketSizes, leave s ≤ 1048808 * (4 * (3 * s / 4 + 1)) := by decide
      have h3 := this p hs
      have h4 : 3 * p / 4 + 1 ≤ e := by omega
      have : leave p ≤ 1048808 * (4 * e) := by omega
      nlinarith
    · omega
  · rw [leave_large (by omega)]
    have h3 : 3 * p * (3 * p) ≤ 4 * e * (4 * e) := Nat.mul_le_mul (by omega) (by omega)
    obtain ⟨y, rfl⟩ : ∃ y, p = 196613 + y := ⟨p - 196613, by omega⟩
    rw [show 196613 + y - 65512 = y + 131101 by omega]
    have e1 : 3 * (y + 131101) * (196613 + y + 196613) = 3 * (y * y) + 1572981 * y + 154656965478 := by ring
    have e2 : 3 * (196613 + y) * (3 * (196613 + y)) = 9 * (y * y) + 3539034 * y + 347910045921 := by ring
    have e3 : 4 * e * (4 * e) = 16 * (e * e) := by ring
    rw [e1]
    rw [e2, e3] at h3
    generalize y * y = yy, e * e = ee at *
    linarith

/-- what is kept of a history: `e` operations since the last `clear`, in which `g` moves were due to growth -/
def Up (t : Table Nat) (n M : Nat) : Prop :=
  ∃ m0 M0 e g, n = m0 + e ∧ 196650 * M0 ≤ m0 * m0 + 10 * 196650 * m0 ∧ t.ne ≤ e ∧
    4 * M + 6 * (4 * (t.ne + t.nt) - 3 * t.nb) ≤ 4 * M0 + 24 * e + 4 * g ∧
    ((g = 0 ∧ t.nb ≤ 536870911) ∨ ∃ p, t.nb = computeBucketSize p ∧ SizeOk p ∧ 3 * p < 4 * e ∧ 1048808 * g ≤ leave p)

theorem Up.bound {t : Table Nat} {n M : Nat} (h : Up t n M) : 196650 * M ≤ n * n + 10 * 196650 * n := by
  obtain ⟨m0, M0, e, g, rfl, h1, h2, h3, h4⟩ := h
  have hg : 196650 * g ≤ e * e + 4 * 196650 * e := by
    rcases h4 with ⟨rfl, _⟩ | ⟨p, _, hs, hp, hg⟩
    · omega
    · have := leave_bound hs hp
      nlinarith
  have : (m0 + e) * (m0 + e) = m0 * m0 + e * e + 2 * (m0 * e) := by ring
  rw [this]
  generalize m0 * m0 = a, e * e = b, m0 * e = d at *
  omega

theorem Up.small {t : Table Nat} {n M : Nat} (h : Up t n M) (hn : n ≤ 400000000) : t.nb ≤ 536870911 := by
  obtain ⟨m0, M0, e, g, rfl, h1, h2, h3, h4⟩ := h
  rcases h4 with ⟨_, h⟩ | ⟨p, h5, hs, hp, hg⟩
  · exact h
  · have := computeBucketSize_bounds p (by omega)
    omega

theorem up_step {op : TOp K V} {t t' : Table Nat} {n M c : Nat} (hn : n ≤ 400000000) (hI : Up t n M) (D : Delta op t t' c) :
    Up t' (n + 1) (M + c) := by
  have hsm := hI.small hn
  have hbd := hI.bound
  cases D with
  | skip h hc =>
    subst h hc
    obtain ⟨m0, M0, e, g, rfl, h1, h2, h3, h4⟩ := hI
    refine ⟨m0, M0, e + 1, g, by omega, h1, by omega, by omega, ?_⟩
    rcases h4 with h | ⟨p, h5, hs, hp, hg⟩
    · exact Or.inl h
    · exact Or.inr ⟨p, h5, hs, by omega, hg⟩
  | clear h h' hc =>
    subst h' hc
    refine ⟨n + 1, M, 0, 0, rfl, ?_, le_refl _, by simp [Table.null], Or.inl ⟨rfl, by simp [Table.null]⟩⟩
    nlinarith
  | work nb ne nt u h0 hs hnb h1 h2 h3 h4 hc =>
    obtain ⟨m0, M0, e, g, rfl, hM0, he, hpot, hg⟩ := hI
    -- the state in which `mayRehash` is called
    have hnb' : nb ≤ 536870911 := by
      rcases h0 with ⟨h0, _⟩ | ⟨_, h0, _⟩ <;> omega
    have hpot' : 4 * M + 6 * (4 * (ne + nt) - 3 * nb) ≤ 4 * M0 + 24 * (e + 1) + 4 * g := by
      rcases h0 with ⟨h0, hu⟩ | ⟨h0, h0', hu⟩
      · subst h0 hu; omega
      · subst h0 h0' hu
        simp only [Table.null] at hpot
        omega
    have hg' : (g = 0 ∧ nb ≤ 536870911) ∨ ∃ p, nb = computeBucketSize p ∧ SizeOk p ∧ 3 * p < 4 * e ∧ 1048808 * g ≤ leave p := by
      rcases h0 with ⟨h0, _⟩ | ⟨h0, h0', _⟩
      · rw [h0]; exact hg
      · rcases hg with ⟨hg, _⟩ | ⟨p, h5, _, _, _⟩
        · exact Or.inl ⟨hg, hnb'⟩
        · exfalso
          have hp := computeBucketSize_bounds p (by omega)
          rw [h0] at h5
          simp only [Table.null] at h5
          omega
    generalize hnbe : t'.nb = nb', hnee : t'.ne = ne', hnte : t'.nt = nt' at hc
    cases hc with
    | none a b =>
      refine ⟨m0, M0, e + 1, g, by omega, hM0, by omega, by rw [hnbe, hnee, hnte]; omega, ?_⟩
      rw [hnbe]
      rcases hg' with h | ⟨p, h5, hs, hp, hg⟩
      · exact Or.inl h
      · exact Or.inr ⟨p, h5, hs, by omega, hg⟩
    | same a b =>
      rw [w32_of_lt (by omega)] at b
      refine ⟨m0, M0, e + 1, g, by omega, hM0, by omega, by rw [hnbe, hnee, hnte]; omega, ?_⟩
      rw [hnbe]
      rcases hg' with h | ⟨p, h5, hs, hp, hg⟩
      · exact Or.inl h
      · exact Or.inr ⟨p, h5, hs, by omega, hg⟩
    | grow a =>
      have hgap := computeBucketSize_gap nb (by omega) hs
      refine ⟨m0, M0, e + 1, g + c, by omega, hM0, by omega, by rw [hnbe, hnee, hnte]; omega, Or.inr ⟨nb, hnbe, hs, by omega, ?_⟩⟩
      have hc : c ≤ 3 * nb / 4 + 1 := by omega
      rcases hg' with ⟨h, _⟩ | ⟨p, h5, hs, hp, hg⟩
      · have := leave_first hs
        rw [h]
        omega
      · have := leave_step hs (by omega)
        rw [← h5] at this
        omega

/-! ### Large initial sizes -/

theorem reserve_insert {N : Nat} (hN : 536870912 ≤ N) (hN' : N ≤ 613566756) (R : TRel hash h t m) (F : h.Fresh) (hb : t.nb = N)
    (ht : t.nt = 0) (hm : m.length < N - 536870912) {k : K} (hk : m.lookup k = none) :
    ∃ h' t', stepC hash dflt h t (.insert k) = .ok ((h', t', .inserted false dflt), m.length + 1) ∧ TRel hash h' t' ((k, dflt) :: m) ∧
      h'.Fresh ∧ t'.nb = N ∧ t'.nt = 0 := by
  have hne := R.ne_eq
  obtain ⟨h1, t1, e1, R1, S1, K1⟩ := step_sim (dflt := dflt) R F (by omega) (.insert k) (by simp only [TPre]; omega)
  have hts : tstep dflt m (.insert k) = ((k, dflt) :: m, .inserted false dflt) := by simp only [tstep, hk]
  rw [hts] at e1 R1
  rw [stepC_fst] at e1
  obtain ⟨⟨⟨h2, t2, r2⟩, c⟩, e2, e3⟩ := Res.bind_eq_ok.mp e1
  simp at e3
  obtain ⟨rfl, rfl, rfl⟩ := e3
  suffices hc : t2.nb = N ∧ t2.nt = 0 ∧ c = m.length + 1 by
    obtain ⟨a, b, rfl⟩ := hc
    exact ⟨h2, t2, e2, R1, S1.fresh, a, b⟩
  have hne1 := R1.ne_eq
  simp only [stepC] at e2
  obtain ⟨⟨⟨h3, t3, p, ex⟩, c2⟩, he, hr⟩ := Res.bind_eq_ok.mp e2
  obtain ⟨v, _, hr⟩ := Res.bind_eq_ok.mp hr
  cases hr
  unfold insertC at he
  simp only [Heap.alloc] at he
  obtain ⟨⟨⟨t4, i, b⟩, c3⟩, he4, hrest⟩ := Res.bind_eq_ok.mp he
  clear he
  simp at hrest
  obtain ⟨rfl, rfl⟩ : t4 = t3 ∧ c3 = c2 := by
    cases b
    · simp at hrest; exact ⟨hrest.1.2.1, hrest.2⟩
    · simp only [if_true] at hrest
      split at hrest
      · simp at hrest
      · cases hrest
  have hno : ∀ e ∈ t.entries, h.keyOf e ≠ some k := by
    intro e he hke
    have := R.of_key he hke
    obtain ⟨c, hc1, hc2⟩ := this
    simp [hk] at hc2
  rcases insertEC_absent R.good (by omega) k h.next with ⟨i2, hins⟩ | ⟨_, hins⟩
  · rw [hins] at he4
    cases he4
    simp only [List.length_cons] at hne1
    omega
  · have hmem : h.next ∉ t.entries := fun hm => by have := R.lt_next F hm; omega
    obtain ⟨i3, t0, u, h1, h2, h3, h4, h5, h6⟩ :=
      hins (fun e => if e = h.next then some k else h.keyOf e)
        (by intro e he; rw [if_neg]; rintro rfl; exact hmem he) (by simp)
    rw [h1] at he4
    obtain ⟨⟨t5, c5⟩, e5, e6⟩ := Res.bind_eq_ok.mp he4
    cases e6
    rcases h2 with rfl | ⟨rfl, rfl⟩
    · have hc := mayRehashC_cost h3 (by omega) e5
      rw [h4, h5, hb, hne, show u.nt = 0 by omega] at hc
      generalize t5.nb = nb', t5.ne = ne', t5.nt = nt' at hc
      cases hc with
      | none a b => simp only [w32] at b; omega
      | same a b => exact ⟨rfl, rfl, rfl⟩
      | grow a => omega
    · simp [Table.null] at hb
      omega

end HashTable
end Eni
