import Verif.Proofs.HashIter
import Verif.Model.HashClient
/-!
# Removal in place: iterators and removal during an iteration

Helper lemmas, no property statements.
-/
set_option linter.unusedSectionVars false
set_option linter.unusedVariables false

namespace Eni
open Spec
namespace HashTable
open Table
variable {E K V : Type} [DecidableEq K]

/-- an entry stands in one bucket only -/
theorem index_unique {α β : Type} {f : α → Option β} : ∀ {l : List α}, (l.filterMap f).Nodup → ∀ {i j : Nat} {a b : α} {x : β},
    l[i]? = some a → l[j]? = some b → f a = some x → f b = some x → i = j := by
  intro l
  induction l with
  | nil => intro _ i j a b x h; simp at h
  | cons c l ih =>
    intro hnd i j a b x hi hj ha hb
    have hmem : ∀ {n : Nat} {d : α}, l[n]? = some d → f d = some x → x ∈ l.filterMap f :=
      fun hn hd => List.mem_filterMap.mpr ⟨_, List.mem_of_getElem? hn, hd⟩
    have hhead : f c = some x → x ∉ l.filterMap f := by
      intro hc
      rw [List.filterMap_cons, hc] at hnd
      exact (List.nodup_cons.mp hnd).1
    have htail : (l.filterMap f).Nodup := by
      rw [List.filterMap_cons] at hnd
      cases hc : f c with
      | none => rwa [hc] at hnd
      | some y => rw [hc] at hnd; exact (List.nodup_cons.mp hnd).2
    match i, j with
    | 0, 0 => rfl
    | 0, j + 1 =>
      simp only [List.getElem?_cons_zero, Option.some.injEq] at hi
      simp only [List.getElem?_cons_succ] at hj
      subst hi
      exact absurd (hmem hj hb) (hhead ha)
    | i + 1, 0 =>
      simp only [List.getElem?_cons_zero, Option.some.injEq] at hj
      simp only [List.getElem?_cons_succ] at hi
      subst hj
      exact absurd (hmem hi ha) (hhead hb)
    | i + 1, j + 1 =>
      simp only [List.getElem?_cons_succ] at hi hj
      rw [ih htail hi hj ha hb]

theorem key_unique {hash : K → UInt32} {keyOf : E → Option K} {t : Table E} (W : WF hash keyOf t) {i j : Nat} {a b : Bucket E}
    {e e' : E} {k : K} (hi : t.buckets[i]? = some a) (hj : t.buckets[j]? = some b) (ha : a.slot = .full e) (hb : b.slot = .full e')
    (hk : keyOf e = some k) (hk' : keyOf e' = some k) : i = j := by
  have hnd : (t.buckets.filterMap fun c => (slotEntry c).bind fun e => some (keyOf e)).Nodup := by
    have h1 := W.lay.nodup
    rw [ents, ← List.filterMap_eq_map, List.filterMap_filterMap] at h1
    exact h1
  exact index_unique hnd hi hj (x := some k) (by simp [slotEntry, ha, hk]) (by simp [slotEntry, hb, hk'])

theorem find_at {hash : K → UInt32} {keyOf : E → Option K} {t : Table E} (W : WF hash keyOf t) {i : Nat} {b : Bucket E} {e : E} {k : K}
    (hi : t.buckets[i]? = some b) (hs : b.slot = .full e) (hk : keyOf e = some k) : findKey hash keyOf t k = .ok (some i) := by
  rcases W.findKey_spec k with ⟨_, hno⟩ | ⟨j, b', e', h, hj, hs', hk'⟩
  · exact absurd hk (hno e (mem_ents.mpr ⟨i, b, hi, hs⟩))
  · rw [h, key_unique W hi hj hs hs' hk hk']

/-- Tables in which the removal of an entry does not move the others. -/
structure Calm (t : Table E) : Prop where
  load : 4 * t.ne ≤ 3 * t.nb
  free : t.nb ≤ 8 * (t.nb - (t.ne + t.nt))
  small : t.nb ≤ 536870911

/-- the table after removal of the entry in bucket `i` -/
def tombAt (t : Table E) (i : Nat) (b : Bucket E) : Table E :=
  { t with buckets := t.buckets.set i { b with slot := .tomb }, ne := t.ne - 1, nt := t.nt + 1 }

theorem eraseE_inplace {hash : K → UInt32} {keyOf : E → Option K} {t : Table E} (W : WF hash keyOf t) (C : Calm t) {i : Nat}
    {b : Bucket E} {e : E} {k : K} (hi : t.buckets[i]? = some b) (hs : b.slot = .full e) (hk : keyOf e = some k) :
    eraseE hash keyOf t k = .ok (tombAt t i b, some e) ∧ Calm (tombAt t i b) := by
  have hf := find_at W hi hs hk
  have hr := W.room
  have hl := lt_of_get hi
  have hlen := W.len
  have h1 := C.load
  have h2 := C.free
  have h3 := C.small
  have hpos : 0 < t.ne := by
    rw [W.ne_eq]; exact List.length_pos_of_mem (mem_ents.mpr ⟨i, b, hi, hs⟩)
  have hm : mayRehash (tombAt t i b) = .ok (tombAt t i b) := by
    unfold mayRehash tombAt
    simp only
    rw [w32_of_lt (by omega), w32_of_lt (by omega), w32_of_lt (by omega : t.ne - 1 + (t.nt + 1) < _), sub32_of_le (by omega) (by omega),
      w32_of_lt (by omega), if_neg (by omega), if_neg (by omega)]
  refine ⟨?_, ⟨by simp only [tombAt]; omega, by simp only [tombAt]; omega, h3⟩⟩
  have h4 : w32 (t.nt + 1) = t.nt + 1 := w32_of_lt (by omega)
  have h5 : sub32 t.ne 1 = t.ne - 1 := sub32_of_le hpos (by omega)
  unfold tombAt at hm
  simp only [eraseE, hf, Res.ok_bind, if_pos (by omega : i < 2147483648), hi, hs, h4, h5, hm, tombAt]

theorem Load.calm {t : Table Nat} (L : Load t) (hb : t.nb ≤ 536870911) : t = Table.null ∨ Calm t := by
  rcases L with h | ⟨_, h2, h3⟩
  · exact Or.inl h
  · exact Or.inr ⟨h2, h3, hb⟩

variable {hash : K → UInt32} {h : Heap K V} {t : Table Nat} {m : FMap K V}

theorem erase_inplace (R : TRel hash h t m) (F : h.Fresh) (hm : m.length ≤ 1073643498) (C : Calm t) {i : Nat} {b : Bucket Nat} {e : Nat}
    {k : K} (W : WF hash h.keyOf t) (hi : t.buckets[i]? = some b) (hs : b.slot = .full e) (hk : h.keyOf e = some k) :
    ∃ h', erase hash h t k = .ok (h', tombAt t i b, true) ∧ TRel hash h' (tombAt t i b) (m.erase k) ∧ h'.Fresh ∧ Calm (tombAt t i b) ∧
      ∀ q ∈ t.entries, h.keyOf q ≠ some k → h'.cells q = h.cells q := by
  obtain ⟨h', t', e1, R', e2, S, e3⟩ := erase_sim R F hm k
  obtain ⟨e4, C'⟩ := eraseE_inplace W C hi hs hk
  have ht : t' = tombAt t i b := by
    unfold erase at e1
    rw [e4] at e1
    simp only [Res.ok_bind] at e1
    rw [Res.bind_eq_ok] at e1
    obtain ⟨h2, _, hr⟩ := e1
    simp at hr
    exact hr.2.1.symm
  subst ht
  have hl : (m.lookup k).isSome = true := by
    obtain ⟨v, _, hl⟩ := R.of_key (mem_ents.mpr ⟨i, b, hi, hs⟩) hk
    rw [hl]; rfl
  rw [hl] at e1
  exact ⟨h', e1, R', S.fresh, C', fun q hq hqk => (e3 q hq hqk).2⟩

theorem drop_tombAt (t : Table E) (i : Nat) (b : Bucket E) : (tombAt t i b).buckets.drop (i + 1) = t.buckets.drop (i + 1) := by
  simp only [tombAt]
  rw [List.drop_set_of_lt (by omega)]

theorem advance_eq {t : Table E} (hl : t.buckets.length = t.nb) {i : Nat} (hi : i < t.nb) :
    advance t (some i) = .ok (scanFull (t.buckets.drop (i + 1)) (i + 1)) := by
  simp only [advance, if_pos hi]
  rw [← hl, List.take_length]

/-- what a walk from bucket `i` on does to the map -/
theorem sweepFrom_spec (hash : K → UInt32) (p : K → V → Bool) (late : Bool) : ∀ (fuel i : Nat) (h : Heap K V) (t : Table Nat) (m : FMap K V),
    TRel hash h t m → h.Fresh → m.length ≤ 1073643498 → WF hash h.keyOf t → Calm t → t.nb - i ≤ fuel → i ≤ t.nb →
    ∃ h' t' vs m', sweepFrom hash p late fuel h t (scanFull (t.buckets.drop i) i) = .ok (h', t', vs) ∧ TRel hash h' t' m' ∧
      vs.map bcell = (ents (t.buckets.drop i)).map h.cells ∧
      ∀ k, ((∃ v, (k, v) ∈ vs ∧ p k v = true) → m'.lookup k = none) ∧
        ((¬ ∃ v, (k, v) ∈ vs ∧ p k v = true) → m'.lookup k = m.lookup k) := by
  intro fuel
  induction fuel with
  | zero =>
    intro i h t m R F hm W C hf hi
    have hd : t.buckets.drop i = [] := List.drop_eq_nil_of_le (by have := W.len; omega)
    rw [hd]
    exact ⟨h, t, [], m, rfl, R, rfl, fun k => by simp⟩
  | succ fuel ih =>
    intro i h t m R F hm W C hf hi
    rcases scanFull_spec (t.buckets.drop i) i with ⟨h1, h2⟩ | ⟨d, b, e, h1, h2, h3, h4⟩
    · rw [h1, h2]
      exact ⟨h, t, [], m, rfl, R, rfl, fun k => by simp⟩
    · rw [h1, h4]
      rw [List.getElem?_drop] at h2
      rw [List.drop_drop, show i + (d + 1) = i + d + 1 by omega]
      have hlt := lt_of_get h2
      have hlen := W.len
      have hmem : e ∈ t.entries := mem_ents.mpr ⟨i + d, b, h2, h3⟩
      obtain ⟨⟨k, v⟩, hc⟩ := R.live hmem
      have hkey : h.keyOf e = some k := by simp [Heap.keyOf, hc]
      have hget : getEntry t (some (i + d)) = .ok e := by
        obtain ⟨bh, bs⟩ := b
        simp only at h3
        subst h3
        simp only [getEntry, h2]
      have hadv := advance_eq hlen (by omega : i + d < t.nb)
      obtain ⟨h', t', m1, e1, R1, F1, W1, C1, l1, d1, cells, nb1, look⟩ : ∃ h' t' m1,
          eraseIf hash (p k v) h t k = .ok (h', t', p k v) ∧ TRel hash h' t' m1 ∧ h'.Fresh ∧
          WF hash h'.keyOf t' ∧ Calm t' ∧ m1.length ≤ 1073643498 ∧ t'.buckets.drop (i + d + 1) = t.buckets.drop (i + d + 1) ∧
          (∀ q ∈ ents (t.buckets.drop (i + d + 1)), h'.cells q = h.cells q) ∧ t'.nb = t.nb ∧
          ∀ k', m1.lookup k' = if k' = k ∧ p k v = true then none else m.lookup k' := by
        cases hp : p k v with
        | false =>
          refine ⟨h, t, m, rfl, R, F, W, C, hm, rfl, fun _ _ => rfl, rfl, fun k' => ?_⟩
          rw [if_neg (by simp)]
        | true =>
          obtain ⟨h', e1, R', F', C', e3⟩ := erase_inplace R F hm C W h2 h3 hkey
          have W' : WF hash h'.keyOf (tombAt t (i + d) b) := by
            rcases R'.good with hn | hw
            · have := W.room
              have h0 : (tombAt t (i + d) b).nb = 0 := by rw [hn]; rfl
              simp only [tombAt] at h0
              omega
            · exact hw
          refine ⟨h', tombAt t (i + d) b, m.erase k, by simp [eraseIf, e1], R', F', W', C', ?_, drop_tombAt _ _ _, ?_, rfl, ?_⟩
          · have : (m.erase k).length ≤ m.length := by unfold FMap.erase; exact List.length_filter_le _ _
            omega
          · intro q hq
            have hq1 : q ∈ t.entries := by
              rw [entries_eq]
              rw [← List.take_append_drop (i + d + 1) t.buckets]
              simp only [ents, List.filterMap_append]
              exact List.mem_append_right _ hq
            refine e3 q hq1 ?_
            intro hqk
            obtain ⟨j, b', hj, hs'⟩ := mem_ents.mp hq
            rw [List.getElem?_drop] at hj
            have := key_unique W h2 hj h3 hs' hkey hqk
            omega
          · intro k'
            rw [FMap.lookup_erase]
            simp
      have hlen1 := W1.len
      have hadv1 := advance_eq hlen1 (by omega : i + d < t'.nb)
      rw [d1] at hadv1
      obtain ⟨h2', t2, vs, m2, e2, R2, v2, look2⟩ := ih (i + d + 1) h' t' m1 R1 F1 l1 W1 C1 (by omega) (by omega)
      rw [d1] at e2 v2
      refine ⟨h2', t2, (k, v) :: vs, m2, ?_, R2, ?_, ?_⟩
      · simp only [sweepFrom, hget, Res.ok_bind, hc, hadv, e1, hadv1, ite_self, e2]
      · simp only [List.map_cons, hc]
        rw [v2, List.map_congr_left cells]
        rfl
      · intro k'
        constructor
        · rintro ⟨v', h7, h8⟩
          by_cases h5 : ∃ v', (k', v') ∈ vs ∧ p k' v' = true
          · exact (look2 k').1 h5
          · rw [(look2 k').2 h5, look, if_pos]
            rcases List.mem_cons.mp h7 with h9 | h9
            · simp only [Prod.mk.injEq] at h9
              obtain ⟨rfl, rfl⟩ := h9
              exact ⟨rfl, h8⟩
            · exact absurd ⟨v', h9, h8⟩ h5
        · intro hn
          rw [(look2 k').2 (fun ⟨v', h6, h7⟩ => hn ⟨v', List.mem_cons_of_mem _ h6, h7⟩), look, if_neg]
          rintro ⟨rfl, h6⟩
          exact hn ⟨v, List.mem_cons_self, h6⟩

theorem bcell_injective : Function.Injective (bcell (K := K) (V := V)) := by
  rintro ⟨a, b⟩ ⟨c, d⟩ h
  simp [bcell] at h
  rw [h.1, h.2]

/-- functional maps with the same lookups have the same bindings -/
theorem perm_of_lookup {m m' : FMap K V} (hf : m.Functional) (hf' : m'.Functional) (h : ∀ k, m.lookup k = m'.lookup k) : m.Perm m' := by
  refine (List.perm_ext_iff_of_nodup (List.Nodup.of_map _ hf) (List.Nodup.of_map _ hf')).mpr ?_
  rintro ⟨k, v⟩
  constructor
  · intro hm; exact FMap.mem_of_lookup (by rw [← h]; exact FMap.lookup_of_mem hf hm)
  · intro hm; exact FMap.mem_of_lookup (by rw [h]; exact FMap.lookup_of_mem hf' hm)

theorem sweep_spec (R : TRel hash h t m) (F : h.Fresh) (hm : m.length ≤ 1073643498) (L : Load t) (hb : t.nb ≤ 536870911)
    (p : K → V → Bool) (late : Bool) :
    ∃ h' t' vs m', sweep hash p late h t = .ok (h', t', vs) ∧ TRel hash h' t' m' ∧ vs.map bcell = t.entries.map h.cells ∧ vs.Perm m ∧
      m'.Perm (m.filter fun kv => !p kv.1 kv.2) := by
  have main : ∃ h' t' vs m', sweep hash p late h t = .ok (h', t', vs) ∧ TRel hash h' t' m' ∧ vs.map bcell = t.entries.map h.cells ∧
      ∀ k, ((∃ v, (k, v) ∈ vs ∧ p k v = true) → m'.lookup k = none) ∧
        ((¬ ∃ v, (k, v) ∈ vs ∧ p k v = true) → m'.lookup k = m.lookup k) := by
    rcases R.good with rfl | W
    · exact ⟨h, Table.null, [], m, rfl, R, rfl, fun k => by simp⟩
    · have C : Calm t := by
        rcases L.calm hb with rfl | C
        · have := W.room; simp [Table.null] at this
        · exact C
      obtain ⟨h', t', vs, m', e1, R', e2, e3⟩ := sweepFrom_spec hash p late t.nb 0 h t m R F hm W C (by omega) (by omega)
      simp only [List.drop_zero] at e1 e2
      refine ⟨h', t', vs, m', ?_, R', e2, e3⟩
      unfold sweep begin_
      by_cases hne : t.ne = 0
      · have : t.entries = [] := by rw [← List.length_eq_zero_iff, ← W.ne_eq]; exact hne
        rw [entries_eq] at this
        rw [if_pos hne]
        rcases scanFull_spec t.buckets 0 with ⟨h1, h2⟩ | ⟨d, b, e, h1, h2, h3, h4⟩
        · rw [h1] at e1; exact e1
        · rw [this] at h4; cases h4
      · rw [if_neg hne]
        rcases scanFull_spec t.buckets 0 with ⟨h1, h2⟩ | ⟨d, b, e, h1, h2, h3, h4⟩
        · exfalso; apply hne; rw [W.ne_eq, entries_eq, h2]; rfl
        · rw [h1] at e1 ⊢
          exact e1
  obtain ⟨h', t', vs, m', e1, R', e2, e3⟩ := main
  have hp : vs.Perm m := by
    have := R.abs
    rw [← e2] at this
    exact (List.map_perm_map_iff bcell_injective).mp this
  refine ⟨h', t', vs, m', e1, R', e2, hp, ?_⟩
  refine perm_of_lookup R'.functional ?_ ?_
  · exact List.Nodup.sublist (List.Sublist.map _ List.filter_sublist) R.functional
  · intro k
    cases hl : m.lookup k with
    | none =>
      have : m'.lookup k = none := by
        by_cases h5 : ∃ v, (k, v) ∈ vs ∧ p k v = true
        · exact (e3 k).1 h5
        · rw [(e3 k).2 h5, hl]
      rw [this]
      symm
      rw [FMap.lookup_none_iff]
      intro v hv
      exact FMap.lookup_none_iff.mp hl v (List.mem_filter.mp hv).1
    | some v =>
      have hv := FMap.mem_of_lookup hl
      by_cases hpv : p k v = true
      · rw [(e3 k).1 ⟨v, hp.mem_iff.mpr hv, hpv⟩]
        symm
        rw [FMap.lookup_none_iff]
        intro v' hv'
        obtain ⟨h1, h2⟩ := List.mem_filter.mp hv'
        have : m.lookup k = some v' := FMap.lookup_of_mem R.functional h1
        rw [hl] at this
        rw [← Option.some.inj this] at h2
        simp [hpv] at h2
      · rw [(e3 k).2, hl]
        · symm
          refine FMap.lookup_of_mem (List.Nodup.sublist (List.Sublist.map _ List.filter_sublist) R.functional) ?_
          exact List.mem_filter.mpr ⟨hv, by simpa using hpv⟩
        · rintro ⟨v', h1, h2⟩
          have : m.lookup k = some v' := FMap.lookup_of_mem R.functional (hp.mem_iff.mp h1)
          rw [hl] at this
          rw [← Option.some.inj this] at h2
          exact hpv h2

end HashTable
end Eni
