import Verif.Proofs.HashSim
import Verif.Spec.SMapSpec
/-!
# Simulation of finite maps by `StringMap`

Helper lemmas, no property statements.
-/
set_option linter.unusedSectionVars false
set_option linter.unusedVariables false

namespace Eni
open Spec

namespace Table
variable {E K : Type}

/-- replacing the entry of a bucket by one with the same key -/
theorem Layout.update {hash : K → UInt32} {keyOf : E → Option K} {bs : List (Bucket E)}
    (L : Layout hash keyOf bs) {j : Nat} {b : Bucket E} {e e' : E}
    (hj : bs[j]? = some b) (hs : b.slot = .full e) (hk : keyOf e' = keyOf e) :
    Layout hash keyOf (bs.set j ⟨b.hash, .full e'⟩) := by
  refine ⟨?_, ?_, ?_⟩
  · intro b' hb' x hx
    rcases List.mem_or_eq_of_mem_set hb' with h | h
    · exact L.hashOk b' h x hx
    · subst h
      simp at hx
      subst hx
      rw [hk]
      exact L.hashOk b (List.mem_of_getElem? hj) e hs
  · intro i b' x hi hx
    have hlen : (bs.set j ⟨b.hash, .full e'⟩).length = bs.length := by simp
    have hm : ∀ {s i}, Reach bs s i → Reach (bs.set j ⟨b.hash, .full e'⟩) s i := fun r =>
      Reach.mono hlen (occ_set (by simp)) r
    rw [hlen]
    by_cases hij : j = i
    · subst hij
      rw [List.getElem?_set_self (lt_of_get hj)] at hi
      cases hi
      exact hm (L.reach j b e hj hs)
    · rw [List.getElem?_set_ne hij] at hi
      exact hm (L.reach i b' x hi hx)
  · have h1 : (ents (bs.set j ⟨b.hash, .full e'⟩)).map keyOf = (ents bs).map keyOf := by
      rw [set_at hj]
      conv => rhs; rw [split_at hj]
      simp only [ents, List.filterMap_append, List.filterMap_cons, List.map_append]
      congr 1
      have e1 : slotEntry b = some e := slotEntry_some.mpr hs
      have e2 : slotEntry (⟨b.hash, .full e'⟩ : Bucket E) = some e' := rfl
      rw [e1, e2]
      simp [hk]
    rw [h1]; exact L.nodup

theorem WF.update {hash : K → UInt32} {keyOf : E → Option K} {t : Table E}
    (W : WF hash keyOf t) {j : Nat} {b : Bucket E} {e e' : E}
    (hj : t.buckets[j]? = some b) (hs : b.slot = .full e) (hk : keyOf e' = keyOf e) :
    WF hash keyOf { t with buckets := t.buckets.set j ⟨b.hash, .full e'⟩ } ∧
    (e :: ents (t.buckets.set j ⟨b.hash, .full e'⟩)).Perm (e' :: t.entries) := by
  have hp := ents_set (b' := ⟨b.hash, .full e'⟩) hj
  have e1 : slotEntry b = some e := slotEntry_some.mpr hs
  have e2 : slotEntry (⟨b.hash, .full e'⟩ : Bucket E) = some e' := rfl
  rw [e1, e2] at hp
  simp only [Option.toList, List.singleton_append] at hp
  refine ⟨⟨W.init, by simpa using W.len, W.lay.update hj hs hk, ?_, ?_, W.room, W.small⟩, hp⟩
  · have := hp.length_eq
    simp only [List.length_cons] at this
    have h2 := W.ne_eq
    rw [entries_eq] at h2 ⊢
    simp only
    omega
  · have ht := tmb_set (b' := ⟨b.hash, .full e'⟩) hj
    have h1 : isTomb b = false := by simp [isTomb, hs]
    have h2 : isTomb (⟨b.hash, .full e'⟩ : Bucket E) = false := rfl
    rw [h1, h2] at ht
    have h3 := W.nt_eq
    rw [tombs_eq] at h3 ⊢
    simp only at ht ⊢
    omega

end Table

variable {V : Type}

theorem FMap.length_erase_le' {K V : Type} [DecidableEq K] (m : FMap K V) (k : K) : (m.erase k).length ≤ m.length :=
  List.length_filter_le _ _

theorem FMap.erase_of_none {K V : Type} [DecidableEq K] {m : FMap K V} {k : K} (h : m.lookup k = none) : m.erase k = m := by
  rw [FMap.erase, List.filter_eq_self]
  rintro ⟨a, b⟩ hm
  simp
  rintro rfl
  exact FMap.lookup_none_iff.mp h b hm

theorem FMap.Functional.perm {K V : Type} [DecidableEq K] {m m' : FMap K V} (hf : m.Functional) (hp : m'.Perm m) :
    m'.Functional := (hp.map Prod.fst).nodup_iff.mpr hf

theorem FMap.lookup_perm {K V : Type} [DecidableEq K] {m m' : FMap K V} (hf : m.Functional) (hp : m'.Perm m) (k : K) :
    m'.lookup k = m.lookup k := by
  cases h : m.lookup k with
  | none =>
    rw [FMap.lookup_none_iff] at h ⊢
    intro v hm; exact h v (hp.mem_iff.mp hm)
  | some v => exact FMap.lookup_of_mem (FMap.Functional.perm hf hp) (hp.mem_iff.mpr (FMap.mem_of_lookup h))

namespace SEntry
theorem key_mk' {k : Bytes} (h : k.length < 65536) (v : V) : (mk' k v).key = k := by
  unfold key mk'
  simp [Nat.mod_eq_of_lt h]

theorem keyO_mk' {k : Bytes} (h : k.length < 65536) (v : V) : keyO (mk' k v) = some k := by
  rw [keyO, key_mk' h]

theorem key_len (e : SEntry V) (h : e.keyLen < 65536) : e.key.length < 65536 := by
  unfold key; simp; omega

/-- key and value of an entry -/
def kv (e : SEntry V) : Bytes × V := (e.key, e.val)
end SEntry

/-- a `StringMap` represents a finite map -/
structure SRel (t : SMap V) (m : FMap Bytes V) : Prop where
  good : Table.Good Hasher.sdbm SEntry.keyO t
  lens : ∀ e ∈ t.entries, e.raw.length < 65536 ∧ e.keyLen < 65536
  abs : (t.bindings).Perm m

namespace SRel
variable {t : SMap V} {m : FMap Bytes V}

theorem bindings_eq (t : SMap V) : t.bindings = t.entries.map SEntry.kv := rfl

theorem functional (R : SRel t m) : m.Functional := by
  have h1 := R.good.nodup
  have h2 : t.entries.map SEntry.keyO = ((t.bindings.map Prod.fst).map some) := by
    rw [bindings_eq, List.map_map, List.map_map]; rfl
  rw [h2] at h1
  exact (R.abs.map Prod.fst).nodup_iff.mp (List.Nodup.of_map _ h1)

theorem ne_eq (R : SRel t m) : t.ne = m.length := by
  rw [R.good.ne_eq]
  have := R.abs.length_eq
  simpa [bindings_eq] using this

theorem of_mem (R : SRel t m) {e : SEntry V} (he : e ∈ t.entries) : m.lookup e.key = some e.val :=
  FMap.lookup_of_mem R.functional (R.abs.mem_iff.mp (List.mem_map.mpr ⟨e, he, rfl⟩))

theorem none_of (R : SRel t m) {k : Bytes} (hno : ∀ e ∈ t.entries, SEntry.keyO e ≠ some k) : m.lookup k = none := by
  rw [FMap.lookup_none_iff]
  intro v hm
  obtain ⟨e, he, hkv⟩ := List.mem_map.mp (R.abs.mem_iff.mpr hm)
  refine hno e he ?_
  simp only [Prod.mk.injEq] at hkv
  rw [SEntry.keyO, hkv.1]

theorem perm (R : SRel t m) {m' : FMap Bytes V} (hp : m.Perm m') : SRel t m' := ⟨R.good, R.lens, R.abs.trans hp⟩

theorem new {n : Nat} (hn : n ≤ 1431524664) : SRel (SMap.new n : SMap V) [] := by
  obtain ⟨G, he⟩ := Table.new_good (E := SEntry V) Hasher.sdbm SEntry.keyO hn
  refine ⟨G, ?_, ?_⟩
  · intro e h; unfold SMap.new at h; rw [he] at h; exact absurd h (by simp)
  · rw [bindings_eq]; unfold SMap.new; rw [he]; exact List.Perm.refl _

end SRel

namespace SMap
variable {t : SMap V} {m : FMap Bytes V} {dflt : V}

theorem find_sim (R : SRel t m) (k : Bytes) : find t k = .ok (m.lookup k) := by
  unfold find
  rcases Table.findE_spec R.good k with ⟨h, hno⟩ | ⟨e, h, he, hk⟩
  · simp [h, R.none_of hno]
  · have hk' : e.key = k := by simpa [SEntry.keyO] using hk
    subst hk'
    simp [h, R.of_mem he]

theorem at_sim (R : SRel t m) (k : Bytes) :
    at_ t k = match m.lookup k with | some v => .ok v | none => .throw .invalidStringMapKey := by
  unfold at_
  rw [find_sim R k]
  cases m.lookup k <;> rfl

theorem insert_sim (R : SRel t m) (hm : m.length < 1073643498) {k : Bytes} (hk : k.length < 65536) :
    (∃ i b e, (∀ v, insert t k v = .ok (t, i, true)) ∧ t.buckets[i]? = some b ∧ b.slot = .full e ∧ e.key = k ∧
      e ∈ t.entries ∧ m.lookup k = some e.val) ∨
    (m.lookup k = none ∧ ∀ v, ∃ i t', insert t k v = .ok (t', i, false) ∧ t'.init = true ∧ SRel t' ((k, v) :: m)) := by
  have hne := R.ne_eq
  rcases Table.insertE_spec R.good (by omega) k with ⟨i, b, e, hins, hi, hs, hke, he⟩ | ⟨hno, hins⟩
  · left
    have hk' : e.key = k := by simpa [SEntry.keyO] using hke
    exact ⟨i, b, e, fun v => hins _, hi, hs, hk', he, hk' ▸ R.of_mem he⟩
  · right
    refine ⟨R.none_of hno, fun v => ?_⟩
    obtain ⟨i, t', t0, u, h1, h2, h3, _⟩ := hins SEntry.keyO (SEntry.mk' k v) (fun _ _ => rfl) (SEntry.keyO_mk' hk v)
    refine ⟨i, t', h1, h2.init, ⟨Or.inr h2, ?_, ?_⟩⟩
    · intro e he
      rcases List.mem_cons.mp (h3.mem_iff.mp he) with rfl | h
      · exact ⟨hk, by simp only [SEntry.mk']; omega⟩
      · exact R.lens e h
    · rw [SRel.bindings_eq]
      refine (h3.map _).trans ?_
      rw [List.map_cons, SEntry.kv, SEntry.key_mk' hk]
      exact List.Perm.cons _ R.abs

theorem index_sim (R : SRel t m) (hm : m.length < 1073643498) {k : Bytes} (hk : k.length < 65536) :
    ∃ t', index dflt t k = .ok (t', (m.lookup k).getD dflt) ∧ (t.init = true → t'.init = true) ∧ SRel t' (m.insertNew k dflt) := by
  rcases insert_sim R hm hk with ⟨i, b, e, hins, hi, hs, hke, he, hl⟩ | ⟨hl, hins⟩
  · refine ⟨t, ?_, id, ?_⟩
    · obtain ⟨bh, bs⟩ := b
      simp only at hs
      subst hs
      simp [index, hins, entryAt, hi, hl]
    · simp [FMap.insertNew, hl]; exact R
  · obtain ⟨i, t', h1, hin, R'⟩ := hins dflt
    refine ⟨t', by simp [index, h1, hl], fun _ => hin, ?_⟩
    simp [FMap.insertNew, hl]; exact R'

theorem assign_sim (R : SRel t m) (hm : m.length < 1073643498) {k : Bytes} (hk : k.length < 65536) (v : V) :
    ∃ t', assign t k v = .ok (t', (m.lookup k).isSome) ∧ (t.init = true → t'.init = true) ∧ SRel t' (m.set k v) := by
  rcases insert_sim R hm hk with ⟨i, b, e, hins, hi, hs, hke, he, hl⟩ | ⟨hl, hins⟩
  · obtain ⟨bh, bs⟩ := b
    simp only at hs
    subst hs
    refine ⟨{ t with buckets := t.buckets.set i ⟨bh, .full { e with val := v }⟩ }, by simp [assign, hins, hi, hl], id, ?_⟩
    have W : Table.WF Hasher.sdbm SEntry.keyO t := by
      rcases R.good with rfl | W
      · simp [Table.null] at hi
      · exact W
    obtain ⟨W', hp⟩ := W.update (e' := { e with val := v }) hi rfl rfl
    refine ⟨Or.inr W', ?_, ?_⟩
    · intro x hx
      have : x ∈ e :: Table.ents (t.buckets.set i ⟨bh, .full { e with val := v }⟩) := List.mem_cons_of_mem _ hx
      rcases List.mem_cons.mp (hp.mem_iff.mp this) with rfl | h
      · exact R.lens e he
      · exact R.lens x h
    · rw [SRel.bindings_eq]
      have h1 := hp.map SEntry.kv
      simp only [List.map_cons] at h1
      have h2 := FMap.perm_erase R.functional hl
      have h3 : (SEntry.kv e :: (Table.ents (t.buckets.set i ⟨bh, .full { e with val := v }⟩)).map SEntry.kv).Perm
          ((k, v) :: (k, e.val) :: m.erase k) := by
        refine h1.trans ?_
        have : SEntry.kv { e with val := v } = (k, v) := by rw [← hke]; rfl
        rw [this]
        exact List.Perm.cons _ (R.abs.trans h2)
      have h4 : SEntry.kv e = (k, e.val) := by rw [← hke]; rfl
      rw [h4] at h3
      exact List.Perm.cons_inv (h3.trans (List.Perm.swap _ _ _))
  · obtain ⟨i, t', h1, hin, R'⟩ := hins v
    refine ⟨t', by simp [assign, h1, hl], fun _ => hin, ?_⟩
    rw [FMap.set, FMap.erase_of_none hl]
    exact R'

theorem erase_sim (R : SRel t m) (hm : m.length ≤ 1073643498) (k : Bytes) :
    ∃ t', erase t k = .ok (t', (m.lookup k).isSome) ∧ (t.init = true → t'.init = true) ∧ SRel t' (m.erase k) := by
  have hne := R.ne_eq
  rcases Table.eraseE_spec R.good (by omega) k with ⟨h, hno⟩ | ⟨e, t', u, h, hke, hp, W, _⟩
  · refine ⟨t, by simp [erase, h, R.none_of hno], id, ?_⟩
    rw [FMap.erase_of_none (R.none_of hno)]; exact R
  · have hk' : e.key = k := by simpa [SEntry.keyO] using hke
    have he : e ∈ t.entries := hp.mem_iff.mp List.mem_cons_self
    have hl := R.of_mem he
    rw [hk'] at hl
    refine ⟨t', by simp [erase, h, hl], fun _ => W.init, Or.inr W, fun x hx => R.lens x (hp.mem_iff.mp (List.mem_cons_of_mem _ hx)), ?_⟩
    have h1 := (hp.map SEntry.kv).trans (R.abs.trans (FMap.perm_erase R.functional hl))
    simp only [List.map_cons] at h1
    have h4 : SEntry.kv e = (k, e.val) := by rw [← hk']; rfl
    rw [h4] at h1
    exact List.Perm.cons_inv h1

/-- the operation stays within the size limits -/
def Pre (m : FMap Bytes V) (op : SOp V) : Prop := m.length < 1073643498 ∧ (skey op).length < 65536

theorem step_sim (R : SRel t m) (op : SOp V) (hp : Pre m op) :
    ∃ t', step dflt t op = .ok (t', (sstep dflt m op).2) ∧ (t.init = true → t'.init = true) ∧ SRel t' (sstep dflt m op).1 := by
  obtain ⟨hm, hk⟩ := hp
  cases op with
  | assign k v =>
    obtain ⟨t', h1, hin, h2⟩ := assign_sim R hm (k := k) hk v
    exact ⟨t', by simp [step, h1, sstep], hin, h2⟩
  | index k =>
    obtain ⟨t', h1, hin, h2⟩ := index_sim (dflt := dflt) R hm (k := k) hk
    exact ⟨t', by simp [step, h1, sstep], hin, h2⟩
  | at_ k =>
    refine ⟨t, ?_, id, R⟩
    simp only [step, at_sim R k, sstep]
    cases m.lookup k <;> rfl
  | erase k =>
    obtain ⟨t', h1, hin, h2⟩ := erase_sim R (by omega) k
    exact ⟨t', by simp [step, h1, sstep], hin, h2⟩
  | find k => exact ⟨t, by simp [step, find_sim R k, sstep], id, R⟩
  | size => exact ⟨t, by simp [step, size, R.ne_eq, sstep], id, R⟩

theorem sstep_length (m : FMap Bytes V) (op : SOp V) : (sstep dflt m op).1.length ≤ m.length + 1 := by
  cases op with
  | assign k v => have := FMap.length_erase_le' m k; simp only [sstep, FMap.set, List.length_cons]; omega
  | index k => simp only [sstep, FMap.insertNew]; split <;> simp
  | erase k => have := FMap.length_erase_le' m k; simp only [sstep]; omega
  | _ => simp [sstep]

theorem run_sim (ops : List (SOp V)) : ∀ (t : SMap V) (m : FMap Bytes V), SRel t m → m.length + ops.length ≤ 1073643498 →
    (∀ op ∈ ops, (skey op).length < 65536) →
    ∃ t', run dflt t ops = .ok (t', (sruns dflt m ops).2) ∧ (t.init = true → t'.init = true) ∧ SRel t' (sruns dflt m ops).1 ∧
      (sruns dflt m ops).1.length ≤ m.length + ops.length := by
  induction ops with
  | nil => intro t m R _ _; exact ⟨t, rfl, id, R, by simp [sruns]⟩
  | cons op ops ih =>
    intro t m R hl hk
    simp only [List.length_cons] at hl
    obtain ⟨t1, h1, i1, R1⟩ := step_sim (dflt := dflt) R op ⟨by omega, hk op List.mem_cons_self⟩
    have := sstep_length (dflt := dflt) m op
    obtain ⟨t2, h2, i2, R2, hl2⟩ := ih t1 _ R1 (by omega) (fun o ho => hk o (List.mem_cons_of_mem _ ho))
    exact ⟨t2, by simp [run, h1, h2, sruns], fun h => i2 (i1 h), by simpa [sruns] using R2, by simp only [sruns, List.length_cons]; omega⟩

/-! copies -/

/-- the bucket of a copied table -/
def copyB (b : Bucket (SEntry V)) : Bucket (SEntry V) := match b.slot with
  | .full e => { b with slot := .full (SEntry.mk' e.key e.val) }
  | _ => b

theorem copyB_full {b : Bucket (SEntry V)} {e' : SEntry V} (h : (copyB b).slot = .full e') :
    ∃ e, b.slot = .full e ∧ e' = SEntry.mk' e.key e.val := by
  rcases b with ⟨hh, s⟩
  cases s with
  | full e => simp [copyB] at h; exact ⟨e, rfl, h.symm⟩
  | empty => simp [copyB] at h
  | tomb => simp [copyB] at h

theorem copyB_hash (b : Bucket (SEntry V)) : (copyB b).hash = b.hash := by
  rcases b with ⟨hh, s⟩; cases s <;> rfl

theorem copyB_occ {b : Bucket (SEntry V)} (h : b.slot ≠ .empty) : (copyB b).slot ≠ .empty := by
  rcases b with ⟨hh, s⟩; cases s <;> simp [copyB] at h ⊢

theorem copyB_ents (bs : List (Bucket (SEntry V))) :
    Table.ents (bs.map copyB) = (Table.ents bs).map fun e => SEntry.mk' e.key e.val := by
  induction bs with
  | nil => rfl
  | cons b bs ih =>
    rcases b with ⟨hh, s⟩
    cases s with
    | empty => rw [List.map_cons]; exact ih
    | tomb => rw [List.map_cons]; exact ih
    | full e =>
      rw [List.map_cons, Table.ents_full, List.map_cons, ← ih]
      exact Table.ents_full hh _ _

theorem copyB_tmb (bs : List (Bucket (SEntry V))) : Table.tmb (bs.map copyB) = Table.tmb bs := by
  rw [Table.tmb, List.countP_map]
  congr 1
  funext b
  rcases b with ⟨hh, s⟩
  cases s <;> rfl

theorem copy_eq (t : SMap V) : copy t = { t with init := true, buckets := t.buckets.map copyB } := rfl

theorem copy_sim (R : SRel t m) (hi : t.init = true) : SRel (copy t) m := by
  have W : Table.WF Hasher.sdbm SEntry.keyO t := by
    rcases R.good with rfl | W
    · simp [Table.null] at hi
    · exact W
  have hke : ∀ e ∈ t.entries, (SEntry.mk' e.key e.val).key = e.key := fun e he => SEntry.key_mk' (e.key_len (R.lens e he).2) _
  have hent : (copy t).entries = t.entries.map fun e => SEntry.mk' e.key e.val := copyB_ents t.buckets
  have hlen : (t.buckets.map copyB).length = t.buckets.length := by simp
  have hkeys : (Table.ents (t.buckets.map copyB)).map SEntry.keyO = (Table.ents t.buckets).map SEntry.keyO := by
    rw [copyB_ents, List.map_map]
    apply List.map_congr_left
    intro e he
    simp only [Function.comp, SEntry.keyO]
    rw [hke e he]
  refine ⟨Or.inr ⟨rfl, ?_, ⟨?_, ?_, ?_⟩, ?_, ?_, W.room, W.small⟩, ?_, ?_⟩
  · rw [copy_eq]; simpa using W.len
  · intro b hb e' hs
    obtain ⟨b0, hb0, rfl⟩ := List.mem_map.mp (by rw [copy_eq] at hb; exact hb)
    obtain ⟨e, hs0, rfl⟩ := copyB_full hs
    obtain ⟨k, hk, hh⟩ := W.lay.hashOk b0 hb0 e hs0
    obtain ⟨i, hi⟩ := List.mem_iff_getElem?.mp hb0
    refine ⟨k, ?_, by rw [copyB_hash]; exact hh⟩
    rw [SEntry.keyO, hke e (Table.mem_ents.mpr ⟨i, b0, hi, hs0⟩)]; exact hk
  · intro i b e' hib hs
    have hib : (t.buckets.map copyB)[i]? = some b := hib
    rw [List.getElem?_map] at hib
    obtain ⟨b0, hb0, rfl⟩ := Option.map_eq_some_iff.mp hib
    obtain ⟨e, hs0, rfl⟩ := copyB_full hs
    have := W.lay.reach i b0 e hb0 hs0
    show Table.Reach (t.buckets.map copyB) _ i
    rw [show (copy t).buckets.length = t.buckets.length from hlen, copyB_hash]
    refine Table.Reach.mono hlen ?_ this
    intro j b hj hne
    exact ⟨copyB b, by rw [List.getElem?_map, hj]; rfl, copyB_occ hne⟩
  · show ((Table.ents (t.buckets.map copyB)).map SEntry.keyO).Nodup
    rw [hkeys]; exact W.lay.nodup
  · show t.ne = _
    rw [hent, List.length_map]; exact W.ne_eq
  · show t.nt = Table.tmb (t.buckets.map copyB)
    rw [copyB_tmb]; exact W.nt_eq
  · intro e he
    rw [hent] at he
    obtain ⟨e0, he0, rfl⟩ := List.mem_map.mp he
    exact ⟨e0.key_len (R.lens e0 he0).2, by simp only [SEntry.mk']; omega⟩
  · rw [SRel.bindings_eq, hent, List.map_map]
    have : t.entries.map (SEntry.kv ∘ fun e => SEntry.mk' e.key e.val) = t.bindings := by
      rw [SRel.bindings_eq]
      apply List.map_congr_left
      intro e he
      show ((SEntry.mk' e.key e.val).key, e.val) = _
      rw [hke e he]; rfl
    rw [this]; exact R.abs

/-! long keys -/

theorem findE_miss {K E : Type} [DecidableEq K] {hash : K → UInt32} {keyOf : E → Option K} {t : Table E} {k : K}
    (hi : t.init = true) (hlen : t.buckets.length = t.nb) (room : (Table.ents t.buckets).length + Table.tmb t.buckets < t.buckets.length)
    (live : ∀ e ∈ t.entries, ∃ k', keyOf e = some k' ∧ k' ≠ k) : Table.findE hash keyOf t k = .ok none := by
  have hpos : 0 < t.buckets.length := by omega
  obtain ⟨d, b, hd, hb, hst, hmin⟩ := Table.stop_exists (keyOf := keyOf) (h := hash k) (k := k) room (hash k).toNat
  have hemp : b.slot = .empty := by
    rcases hst with h | ⟨e, hs, _, hk⟩
    · exact h
    · obtain ⟨k', h1, h2⟩ := live e (Table.mem_ents.mpr ⟨_, b, hb, hs⟩)
      rw [h1] at hk
      exact absurd (by simpa using hk) h2
  have hskip := Table.findLoop_skip (keyOf := keyOf) (h := hash k) (k := k) (fun e he => by
    obtain ⟨k', h1, _⟩ := live e he; exact ⟨k', h1⟩) hpos (hash k).toNat d (t.buckets.length + 1 - d) hmin
  have hf : t.buckets.length + 1 - d + d = t.buckets.length + 1 := by omega
  rw [hf] at hskip
  have hk : Table.findKey hash keyOf t k = .ok none := by
    unfold Table.findKey
    rw [if_neg (by simp [hi]), if_neg (by omega), ← hlen, hskip]
    obtain ⟨n, hn⟩ : ∃ n, t.buckets.length + 1 - d = n + 1 := ⟨t.buckets.length - d, by omega⟩
    rw [hn]
    simp [Table.findLoop, hb, hemp]
  simp [Table.findE, hk]

/-- assigning to a key that is too long: a new entry that no lookup finds -/
theorem assign_long (R : SRel t m) (hm : m.length < 1073643498) {k : Bytes} (hk : 65536 ≤ k.length) (v : V) :
    ∃ t', assign t k v = .ok (t', false) ∧ size t' = m.length + 1 ∧ find t' k = .ok none := by
  have hne := R.ne_eq
  rcases Table.insertE_spec R.good (by omega) k with ⟨i, b, e, hins, hi, hs, hke, he⟩ | ⟨hno, hins⟩
  · exfalso
    have hk' : e.key = k := by simpa [SEntry.keyO] using hke
    have := e.key_len (R.lens e he).2
    rw [hk'] at this
    omega
  · obtain ⟨i, t', t0, u, h1, W, h3, _⟩ := hins (fun e => if 65536 ≤ e.raw.length then some e.raw else SEntry.keyO e)
      (SEntry.mk' k v) (fun e he => by have := (R.lens e he).1; rw [if_neg (by omega)]) (by
        rw [if_pos (by simpa [SEntry.mk'] using hk)]; rfl)
    refine ⟨t', ?_, ?_, ?_⟩
    · have h1' : insert t k v = .ok (t', i, false) := h1
      simp [assign, h1']
    · have := h3.length_eq
      have h5 := W.ne_eq
      have h6 := R.good.ne_eq
      simp only [List.length_cons] at this
      show t'.ne = _
      omega
    · unfold find
      have h5 := W.ne_eq
      have h6 := W.nt_eq
      have h7 := W.room
      have h8 := W.len
      rw [findE_miss W.init W.len (by rw [Table.entries_eq] at h5; rw [Table.tombs_eq] at h6; omega)]
      · rfl
      · intro e he
        refine ⟨e.key, rfl, ?_⟩
        have : e.key.length < 65536 := by
          apply SEntry.key_len
          rcases List.mem_cons.mp (h3.mem_iff.mp he) with rfl | h
          · simp only [SEntry.mk']; omega
          · exact (R.lens e h).2
        intro hc
        rw [hc] at this
        omega

end SMap
end Eni
