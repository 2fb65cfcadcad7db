import Verif.Model.HashIterator
import Verif.Proofs.HashCount
import Verif.Proofs.HashErase
import Verif.Proofs.HashWorld
/-!
# Iterators of several tables, chains

Helper lemmas, no property statements.
-/
set_option linter.unusedSectionVars false
set_option linter.unusedVariables false

namespace Eni
open Spec HashTable Table
variable {E K V : Type} [DecidableEq K]

/-! ## equality -/

theorem EIt.equals_iff (a b : EIt) : a.equals b = true ↔ a = b := by
  rcases a with ⟨_, _⟩; rcases b with ⟨_, _⟩
  simp [EIt.equals]

theorem EIt.of_inj {i j : Nat} {p q : EntryIter} : EIt.of i p = EIt.of j q ↔ p = q ∧ (i = j ∨ p = none) := by
  cases p <;> cases q <;> simp [EIt.of, EIt.fin]
  constructor
  · rintro ⟨rfl, rfl⟩; simp
  · rintro ⟨rfl, rfl⟩; simp

/-! ## the walk over all entries -/
namespace World

theorem getEntry_full {t : Table E} {i : Nat} {b : Bucket E} {e : E} (hi : t.buckets[i]? = some b) (hs : b.slot = .full e) :
    getEntry t (some i) = .ok e := by
  rcases b with ⟨_, _⟩
  simp only at hs
  subst hs
  simp [getEntry, hi]

theorem walk_spec {hash : K → UInt32} {w : World K V} {j : Nat} {t : Table Nat} (ht : w.tabs j = some t) (W : WF hash w.heap.keyOf t)
    (live : ∀ p ∈ t.entries, ∃ c, w.heap.cells p = some c) : ∀ (fuel i : Nat), t.nb - i ≤ fuel → i ≤ t.nb →
    ∃ cs, w.walk fuel (EIt.of j (scanFull (t.buckets.drop i) i)) = .ok cs ∧ cs.map some = (ents (t.buckets.drop i)).map w.heap.cells ∧
      w.nexts cs.length (EIt.of j (scanFull (t.buckets.drop i) i)) = .ok .fin ∧
      ∀ n c, cs[n]? = some c → ∃ it, w.nexts n (EIt.of j (scanFull (t.buckets.drop i) i)) = .ok it ∧ w.deref it = .ok c ∧
        w.find hash j c.key = .ok it := by
  have hl := W.len
  intro fuel
  induction fuel with
  | zero =>
    intro i hf hi
    have hd : t.buckets.drop i = [] := List.drop_eq_nil_of_le (by omega)
    rw [hd]
    exact ⟨[], rfl, rfl, rfl, fun n c h => by simp at h⟩
  | succ fuel ih =>
    intro i hf hi
    rcases scanFull_spec (t.buckets.drop i) i with ⟨h1, h2⟩ | ⟨d, b, e, h1, h2, h3, h4⟩
    · rw [h1, h2]
      exact ⟨[], rfl, rfl, rfl, fun n c h => by simp at h⟩
    · rw [List.getElem?_drop] at h2
      have hlt := lt_of_get h2
      obtain ⟨c, hc⟩ := live e (mem_ents.mpr ⟨_, b, h2, h3⟩)
      have hder : w.deref ⟨some j, i + d⟩ = .ok c := by
        simp [deref, tab, ht, getEntry_full h2 h3, hc]
      have hnext : w.next ⟨some j, i + d⟩ = .ok (EIt.of j (scanFull (t.buckets.drop (i + d + 1)) (i + d + 1))) := by
        simp only [next, tab, ht, Res.ok_bind, advance]
        rw [if_pos (by omega), List.take_of_length_le (by omega)]
        rfl
      have hfind : w.find hash j c.key = .ok ⟨some j, i + d⟩ := by
        have := find_at W h2 h3 (k := c.key) (by simp [Heap.keyOf, hc])
        simp [find, tab, ht, findIter, this, EIt.of]
      obtain ⟨cs, g1, g2, g3, g4⟩ := ih (i + d + 1) (by omega) (by omega)
      rw [h1]
      change ∃ cs : List (Cell K V), w.walk (fuel + 1) ⟨some j, i + d⟩ = _ ∧ _ ∧ w.nexts cs.length ⟨some j, i + d⟩ = _ ∧
        ∀ n c, cs[n]? = some c → ∃ it, w.nexts n ⟨some j, i + d⟩ = _ ∧ _
      refine ⟨c :: cs, ?_, ?_, ?_, ?_⟩
      · simp only [walk]
        rw [if_neg (by simp [EIt.equals, EIt.fin]), hder]
        simp only [Res.ok_bind]
        rw [hnext]
        simp only [Res.ok_bind]
        rw [g1]
        rfl
      · rw [h4, List.drop_drop]
        simp only [List.map_cons, hc]
        rw [g2, Nat.add_assoc]
      · simp only [List.length_cons, nexts]
        rw [hnext]
        simp only [Res.ok_bind]
        exact g3
      · intro n c' hn
        cases n with
        | zero =>
          simp at hn
          subst hn
          exact ⟨_, rfl, hder, hfind⟩
        | succ n =>
          simp only [List.getElem?_cons_succ] at hn
          obtain ⟨it, k1, k2, k3⟩ := g4 n c' hn
          refine ⟨it, ?_, k2, k3⟩
          simp only [nexts]
          rw [hnext]
          simp only [Res.ok_bind]
          exact k1

/-- what `begin()` returns -/
theorem beginIt_spec {hash : K → UInt32} {w : World K V} {j : Nat} {t : Table Nat} (ht : w.tabs j = some t)
    (G : Good hash w.heap.keyOf t) : w.beginIt j = .ok (EIt.of j (scanFull (t.buckets.drop 0) 0)) := by
  simp only [beginIt, tab, ht, Res.ok_bind, begin_, List.drop_zero]
  rcases G with rfl | W
  · rfl
  · by_cases hne : t.ne = 0
    · have : t.entries = [] := by rw [← List.length_eq_zero_iff, ← W.ne_eq]; exact hne
      rw [if_pos hne]
      rcases scanFull_spec t.buckets 0 with ⟨h1, h2⟩ | ⟨d, b, e, h1, h2, h3, h4⟩
      · rw [h1]; rfl
      · rw [entries_eq, h4] at this; cases this
    · rw [if_neg hne]
      rcases scanFull_spec t.buckets 0 with ⟨h1, h2⟩ | ⟨d, b, e, h1, h2, h3, h4⟩
      · have := W.ne_eq
        rw [entries_eq, h2] at this
        exact absurd this hne
      · rw [h1]; rfl

/-- cells of the entries and the abstract map -/
theorem cells_perm {hash : K → UInt32} {h : Heap K V} {t : Table Nat} {m : FMap K V} (R : TRel hash h t m) {cs : List (Cell K V)}
    (hc : cs.map some = t.entries.map h.cells) : cs.Perm (m.map fun kv => ⟨kv.1, kv.2⟩) := by
  have h1 := R.abs
  rw [← hc] at h1
  have h2 : m.map bcell = (m.map fun kv => (⟨kv.1, kv.2⟩ : Cell K V)).map some := by
    rw [List.map_map]; rfl
  rw [h2] at h1
  have h3 := h1.filterMap id
  simpa [List.filterMap_map] using h3

/-! ## chains -/

/-- the entry of a bucket if its hash field is `h` -/
def hent (h : UInt32) (b : Bucket E) : Option E := match b.slot with | .full e => if h = b.hash then some e else none | _ => none

theorem chainAdvance_list {t : Table E} (hl : t.buckets.length = t.nb) {h : UInt32} {i0 : Nat} (hi0 : i0 < t.nb) (idx : Nat) :
    ∀ (fuel d : Nat), d < t.nb → t.nb - d ≤ fuel →
      (chainAdvanceLoop t ⟨idx, h, i0⟩ fuel ((i0 + d) % t.nb) = .ok none ∧
        ((t.buckets.rotate i0).drop (d + 1)).filterMap (hent h) = []) ∨
      (∃ d' b e, d < d' ∧ d' < t.nb ∧
        chainAdvanceLoop t ⟨idx, h, i0⟩ fuel ((i0 + d) % t.nb) = .ok (some ⟨(i0 + d') % t.nb, h, i0⟩) ∧
        t.buckets[(i0 + d') % t.nb]? = some b ∧ b.slot = .full e ∧
        ((t.buckets.rotate i0).drop (d + 1)).filterMap (hent h) =
          e :: ((t.buckets.rotate i0).drop (d' + 1)).filterMap (hent h)) := by
  intro fuel
  induction fuel with
  | zero => intro d hd hf; omega
  | succ fuel ih =>
    intro d hd hf
    have hlr : (t.buckets.rotate i0).length = t.nb := by rw [List.length_rotate, hl]
    by_cases hd1 : d + 1 = t.nb
    · left
      constructor
      · unfold chainAdvanceLoop
        simp only
        rw [nextIdx_add (by omega), hd1, if_pos]
        rw [Nat.add_mod_right, Nat.mod_eq_of_lt hi0]
      · rw [List.drop_eq_nil_of_le (by omega)]; rfl
    · have hne : (i0 + (d + 1)) % t.nb ≠ i0 := by
        have := add_mod_ne (n := t.nb) (s := i0) (d := d + 1) (by omega) (by omega)
        rwa [Nat.mod_eq_of_lt hi0] at this
      obtain ⟨b, hb⟩ := get_of_lt (bs := t.buckets) (i := (i0 + (d + 1)) % t.nb) (by rw [hl]; exact Nat.mod_lt _ (by omega))
      have hb2 := hb
      rw [← rot_get hl (by omega)] at hb2
      have hdrop : (t.buckets.rotate i0).drop (d + 1) = b :: (t.buckets.rotate i0).drop (d + 1 + 1) := by
        rw [List.drop_eq_getElem_cons (by omega)]
        congr 1
        rw [List.getElem?_eq_getElem (by omega)] at hb2
        exact Option.some.inj hb2
      have hstep : (∃ e, b.slot = .full e ∧ hent h b = some e ∧
            chainAdvanceLoop t ⟨idx, h, i0⟩ (fuel + 1) ((i0 + d) % t.nb) = .ok (some ⟨(i0 + (d + 1)) % t.nb, h, i0⟩)) ∨
          (hent h b = none ∧ chainAdvanceLoop t ⟨idx, h, i0⟩ (fuel + 1) ((i0 + d) % t.nb) =
            chainAdvanceLoop t ⟨idx, h, i0⟩ fuel ((i0 + (d + 1)) % t.nb)) := by
        have hu : chainAdvanceLoop t ⟨idx, h, i0⟩ (fuel + 1) ((i0 + d) % t.nb) = match b.slot with
            | .full _ => if h = b.hash then .ok (some ⟨(i0 + (d + 1)) % t.nb, h, i0⟩)
              else chainAdvanceLoop t ⟨idx, h, i0⟩ fuel ((i0 + (d + 1)) % t.nb)
            | _ => chainAdvanceLoop t ⟨idx, h, i0⟩ fuel ((i0 + (d + 1)) % t.nb) := by
          conv => lhs; unfold chainAdvanceLoop
          simp only
          rw [nextIdx_add (by omega), if_neg hne, hb]
          rcases b with ⟨bh, s⟩
          cases s <;> rfl
        rw [hu]
        rcases b with ⟨bh, s⟩
        cases s with
        | empty => right; exact ⟨rfl, rfl⟩
        | tomb => right; exact ⟨rfl, rfl⟩
        | full e =>
          by_cases he : h = bh
          · left; exact ⟨e, rfl, by simp [hent, he], by simp [he]⟩
          · right; exact ⟨by simp [hent, he], by simp [he]⟩
      rcases hstep with ⟨e, h1, h2, h3⟩ | ⟨h1, h2⟩
      · right
        exact ⟨d + 1, b, e, by omega, by omega, h3, hb, h1, by rw [hdrop, List.filterMap_cons_some h2]⟩
      · rw [h2, hdrop, List.filterMap_cons_none h1]
        rcases ih (d + 1) (by omega) (by omega) with ⟨g1, g2⟩ | ⟨d', b', e', g1, g2, g3, g4, g5, g6⟩
        · exact Or.inl ⟨g1, g2⟩
        · exact Or.inr ⟨d', b', e', by omega, g2, g3, g4, g5, g6⟩

theorem chainWalk_spec {w : World K V} {j : Nat} {t : Table Nat} (ht : w.tabs j = some t) (hl : t.buckets.length = t.nb)
    (live : ∀ p ∈ t.entries, ∃ c, w.heap.cells p = some c) {h : UInt32} {i0 : Nat} (hi0 : i0 < t.nb) :
    ∀ (fuel d : Nat) (b : Bucket Nat) (e : Nat), d < t.nb → t.nb - d ≤ fuel → t.buckets[(i0 + d) % t.nb]? = some b → b.slot = .full e →
      ∃ cs, w.chainWalk fuel ⟨some j, (i0 + d) % t.nb, h, i0⟩ = .ok cs ∧
        cs.map some = (e :: ((t.buckets.rotate i0).drop (d + 1)).filterMap (hent h)).map w.heap.cells := by
  intro fuel
  induction fuel with
  | zero => intro d b e hd hf; omega
  | succ fuel ih =>
    intro d b e hd hf hb hs
    obtain ⟨c, hc⟩ := live e (mem_ents.mpr ⟨_, b, hb, hs⟩)
    have hder : w.chainDeref ⟨some j, (i0 + d) % t.nb, h, i0⟩ = .ok c := by
      simp [chainDeref, tab, ht, getEntry_full hb hs, hc]
    have hne : ¬ (CIt.equals ⟨some j, (i0 + d) % t.nb, h, i0⟩ .fin = true) := by simp [CIt.equals, CIt.fin]
    rcases chainAdvance_list hl (h := h) hi0 ((i0 + d) % t.nb) (t.nb + 1) d hd (by omega) with
      ⟨h1, h2⟩ | ⟨d', b', e', h1, h2, h3, h4, h5, h6⟩
    · refine ⟨[c], ?_, by simp [h2, hc]⟩
      simp only [chainWalk]
      rw [if_neg hne, hder]
      simp only [Res.ok_bind, chainNext, tab, ht, h1, CIt.of]
      cases fuel <;> rfl
    · obtain ⟨cs, g1, g2⟩ := ih d' b' e' h2 (by omega) h4 h5
      refine ⟨c :: cs, ?_, by rw [List.map_cons, g2, h6, List.map_cons (a := e), hc]⟩
      simp only [chainWalk]
      rw [if_neg hne, hder]
      simp only [Res.ok_bind, chainNext, tab, ht, h3, CIt.of]
      rw [g1]
      rfl

theorem filterMap_hent {hash : K → UInt32} {keyOf : E → Option K} (hv : UInt32) : ∀ (bs : List (Bucket E)),
    (∀ b ∈ bs, ∀ e, b.slot = .full e → ∃ k, keyOf e = some k ∧ b.hash = hash k) →
    bs.filterMap (hent hv) = (ents bs).filter (fun e => match keyOf e with | some k => decide (hash k = hv) | none => false) := by
  intro bs
  induction bs with
  | nil => intro _; rfl
  | cons b bs ih =>
    intro hk
    have h2 := ih (fun b hb => hk b (List.mem_cons_of_mem _ hb))
    rcases b with ⟨bh, s⟩
    cases s with
    | empty => rw [ents_empty, ← h2, List.filterMap_cons_none (by simp [hent])]
    | tomb => rw [ents_tomb, ← h2, List.filterMap_cons_none (by simp [hent])]
    | full e =>
      obtain ⟨k, hk1, hk2⟩ := hk ⟨bh, .full e⟩ List.mem_cons_self e rfl
      simp only at hk2
      subst hk2
      rw [ents_full, List.filter_cons, ← h2]
      by_cases he : hv = hash k
      · rw [List.filterMap_cons_some (b := e) (by simp [hent, he])]
        simp [hk1, he]
      · rw [List.filterMap_cons_none (by simp [hent, he])]
        simp [hk1, Ne.symm he]

theorem chainBegin_present {hash : K → UInt32} {keyOf : E → Option K} {t : Table E} (W : WF hash keyOf t) {k : K} {i : Nat} {b : Bucket E}
    {e : E} (hi : t.buckets[i]? = some b) (hs : b.slot = .full e) (hk : keyOf e = some k) :
    HashTable.chainBegin hash keyOf t k = .ok (some ⟨i, hash k, i⟩) ∧ hent (hash k) b = some e := by
  have hl := W.len
  have hpos : 0 < t.nb := by have := W.room; omega
  obtain ⟨k', hk', hbh⟩ := W.lay.hashOk b (List.mem_of_getElem? hi) e hs
  rw [hk] at hk'
  have := Option.some.inj hk'
  subst this
  obtain ⟨d, hd, hid, hpath⟩ := W.lay.reach i b e hi hs
  rw [hbh, Nat.mod_add_mod] at hid
  rw [hl] at hd hid
  refine ⟨?_, by simp [hent, hs, hbh]⟩
  unfold HashTable.chainBegin
  rw [if_neg (by omega), show t.nb + 1 = (t.nb - d) + 1 + d by omega,
    chainBegin_skip W.lay.live hl (hash k).toNat d _ hd ?_, ← hid]
  · unfold chainBeginLoop
    simp only [hi, hs]
    rw [if_pos hbh.symm]
    simp [hk]
  · intro d' hd' b' hb' hst
    obtain ⟨b2, hb2, hne⟩ := hpath d' hd'
    rw [hbh, Nat.mod_add_mod, hl, hb'] at hb2
    have := Option.some.inj hb2
    subst this
    rcases hst with ⟨h1, _⟩ | ⟨e', h1, _, h3⟩
    · exact hne h1
    · have := W.lay.index_inj hi hs hb' h1 (by rw [hk, h3])
      rw [hid] at this
      have h5 := add_mod_ne (n := t.nb) (s := (hash k).toNat + d') (d := d - d') (by omega) (by omega)
      rw [show (hash k).toNat + d' + (d - d') = (hash k).toNat + d by omega] at h5
      exact h5 this

/-- the chain of a bound key -/
theorem chain_present {hash : K → UInt32} {w : World K V} {j : Nat} {t : Table Nat} {m : FMap K V} (ht : w.tabs j = some t)
    (R : TRel hash w.heap t m) {k : K} {v : V} (hk : m.lookup k = some v) :
    ∃ it cs, w.chainBegin hash j k = .ok it ∧ w.chainWalk t.nb it = .ok (⟨k, v⟩ :: cs) ∧
      ((⟨k, v⟩ : Cell K V) :: cs).Perm ((m.filter fun kv => decide (hash kv.1 = hash k)).map fun kv => ⟨kv.1, kv.2⟩) := by
  rcases R.good with rfl | W
  · have : m = [] := by
      have := R.abs.length_eq
      exact List.length_eq_zero_iff.mp (by simpa [Table.entries, Table.null] using this.symm)
    subst this
    cases hk
  · rcases W.findKey_spec k with ⟨_, hno⟩ | ⟨i, b, e, _, hi, hs, hkey⟩
    · rw [R.none_of hno] at hk; cases hk
    · obtain ⟨h1, h2⟩ := chainBegin_present W hi hs hkey
      have hmem : e ∈ t.entries := mem_ents.mpr ⟨i, b, hi, hs⟩
      obtain ⟨v', hc, hlk⟩ := R.of_key hmem hkey
      rw [hk] at hlk
      cases hlk
      have hl := W.len
      have hi0 : i < t.nb := by rw [← hl]; exact lt_of_get hi
      have hmod : (i + 0) % t.nb = i := by rw [Nat.add_zero, Nat.mod_eq_of_lt hi0]
      obtain ⟨cs, g1, g2⟩ := chainWalk_spec ht hl (fun p hp => R.live hp) (h := hash k) hi0 t.nb 0 b e (by omega) (by omega)
        (by rw [hmod]; exact hi) hs
      rw [hmod] at g1
      have hrot : e :: ((t.buckets.rotate i).drop (0 + 1)).filterMap (hent (hash k)) =
          (t.buckets.rotate i).filterMap (hent (hash k)) := by
        have h3 : 0 < (t.buckets.rotate i).length := by rw [List.length_rotate]; omega
        have h4 := List.drop_eq_getElem_cons h3
        rw [List.drop_zero] at h4
        have h5 : (t.buckets.rotate i)[0]? = some b := by
          rw [rot_get hl (by omega), hmod]; exact hi
        rw [List.getElem?_eq_getElem h3] at h5
        rw [Option.some.inj h5] at h4
        conv => rhs; rw [h4]
        rw [List.filterMap_cons_some h2]
      rw [hrot] at g2
      have hp : ((t.buckets.rotate i).filterMap (hent (hash k))).Perm (t.buckets.filterMap (hent (hash k))) :=
        (List.rotate_perm _ _).filterMap _
      rw [filterMap_hent (hash k) t.buckets W.lay.hashOk] at hp
      have hcs : ∃ cs', cs = ⟨k, v⟩ :: cs' := by
        rw [← hrot] at g2
        cases cs with
        | nil => simp at g2
        | cons c cs' =>
          simp only [List.map_cons, List.cons.injEq] at g2
          rw [hc] at g2
          exact ⟨cs', by rw [Option.some.inj g2.1]⟩
      obtain ⟨cs', rfl⟩ := hcs
      refine ⟨⟨some j, i, hash k, i⟩, cs', by simp [chainBegin, tab, ht, h1, CIt.of], g1, ?_⟩
      have h6 := hp.map w.heap.cells
      rw [← g2] at h6
      -- the same filter on cells
      have h7 : ((ents t.buckets).filter (fun e => match w.heap.keyOf e with | some k' => decide (hash k' = hash k) | none => false)).map
          w.heap.cells = ((ents t.buckets).map w.heap.cells).filter
            (fun c => match c with | some c => decide (hash c.key = hash k) | none => false) := by
        rw [List.filter_map]
        congr 1
        apply List.filter_congr
        intro x _
        simp only [Heap.keyOf, Function.comp]
        cases w.heap.cells x <;> rfl
      rw [h7] at h6
      have h8 := (R.abs.filter (fun c => match c with | some c => decide (hash c.key = hash k) | none => false))
      rw [entries_eq] at h8
      have h9 := h6.trans h8
      rw [List.filter_map] at h9
      have h10 := h9.filterMap id
      simp only [List.filterMap_map] at h10
      have e1 : ∀ (l : List (Cell K V)), l.filterMap (id ∘ some) = l := fun l => by simp
      have e2 : ∀ (l : FMap K V), l.filterMap (id ∘ bcell) = l.map fun kv => ⟨kv.1, kv.2⟩ := by
        intro l
        induction l with
        | nil => rfl
        | cons a l ih => simp only [List.filterMap_cons, List.map_cons, ← ih]; rfl
      rw [e1, e2] at h10
      exact h10

/-! ## the hash field of empty buckets in programs -/

theorem copyBuckets_ez : ∀ (bs : List (Bucket Nat)) (h h' : Heap K V) (bs' : List (Bucket Nat)), EZ bs →
    copyBuckets h bs = .ok (h', bs') → EZ bs' := by
  intro bs
  induction bs with
  | nil =>
    intro h h' bs' z hc
    simp [copyBuckets] at hc
    rw [hc.2]; exact z
  | cons b bs ih =>
    intro h h' bs' z hc
    have zt : EZ bs := fun i b' hb' => z (i + 1) b' (by simpa using hb')
    have cons : ∀ (b' : Bucket Nat) (bs2 : List (Bucket Nat)), EZ bs2 → (b'.slot = .empty → b'.hash = 0) → EZ (b' :: bs2) := by
      intro b' bs2 z2 hb i c hi hs
      cases i with
      | zero => simp at hi; subst hi; exact hb hs
      | succ i => simp at hi; exact z2 i c hi hs
    have other : ∀ h2, (copyBuckets h2 bs).bind (fun x => .ok (x.1, b :: x.2)) = .ok (h', bs') → EZ bs' := by
      intro h2 hc
      obtain ⟨⟨h1, bs1⟩, e1, e2⟩ := Res.bind_eq_ok.mp hc
      simp at e2
      rw [← e2.2]
      exact cons _ _ (ih _ _ _ zt e1) (fun hs => z 0 b rfl hs)
    rcases b with ⟨bh, s⟩
    cases s with
    | empty => exact other h hc
    | tomb => exact other h hc
    | full p =>
      simp only [copyBuckets] at hc
      cases hcell : h.cells p with
      | none => rw [hcell] at hc; cases hc
      | some c =>
        rw [hcell] at hc
        simp only [Heap.alloc] at hc
        obtain ⟨⟨h1, bs1⟩, e1, e2⟩ := Res.bind_eq_ok.mp hc
        simp at e2
        rw [← e2.2]
        exact cons _ _ (ih _ _ _ zt e1) (fun hs => by cases hs)

/-- all tables -/
def AllEZ (w : World K V) : Prop := ∀ i t, w.tabs i = some t → EZ t.buckets

theorem AllEZ.set {w : World K V} (z : w.AllEZ) {i : Nat} {h : Heap K V} {t : Option (Table Nat)} (ht : ∀ t', t = some t' → EZ t'.buckets) :
    ({ w with heap := h }.setTab i t).AllEZ := by
  intro j u hu
  simp only [setTab] at hu
  split at hu
  · exact ht u hu
  · exact z j u hu

theorem tab_ez {w : World K V} (z : w.AllEZ) {i : Nat} {t : Table Nat} (h : w.tab i = .ok t) : EZ t.buckets := by
  unfold tab at h
  split at h
  · cases h; exact z _ _ ‹_›
  · cases h

theorem copyAssign_ez {h h' : Heap K V} {d t t' : Table Nat} (z : EZ t.buckets) (hc : HashTable.copyAssign h d t = .ok (h', t')) :
    EZ t'.buckets := by
  obtain ⟨⟨h2, bs⟩, e1, e2⟩ := Res.bind_eq_ok.mp hc
  simp at e2
  rw [← e2.2]
  exact copyBuckets_ez _ _ _ _ z e1

theorem step_ez {hash : K → UInt32} {dflt : V} {w w' : World K V} (z : w.AllEZ) {s : Stmt K V} (hs : step hash dflt w s = .ok w') :
    w'.AllEZ := by
  have set1 : ∀ {i : Nat} {t : Option (Table Nat)}, (∀ t', t = some t' → EZ t'.buckets) → (w.setTab i t).AllEZ := fun ht => z.set (h := w.heap) ht
  cases s with
  | new i n =>
    simp [step] at hs; subst hs
    exact set1 (fun t' h => by cases h; exact new_ez n)
  | copyNew i j =>
    obtain ⟨t, e1, hs⟩ := Res.bind_eq_ok.mp hs
    obtain ⟨⟨h2, t2⟩, e2, hs⟩ := Res.bind_eq_ok.mp hs
    simp at hs; subst hs
    have zt := tab_ez z e1
    refine z.set (fun t' h => ?_)
    cases h
    unfold HashTable.copy at e2
    split at e2
    · simp at e2; rw [← e2.2]; exact zt
    · obtain ⟨⟨h3, bs⟩, e3, e4⟩ := Res.bind_eq_ok.mp e2
      simp at e4
      rw [← e4.2]
      exact copyBuckets_ez _ _ _ _ zt e3
  | moveNew i j =>
    obtain ⟨t, e1, hs⟩ := Res.bind_eq_ok.mp hs
    simp [move] at hs; subst hs
    have z2 : (w.setTab j (some Table.null)).AllEZ := set1 (fun t' h => by cases h; exact null_ez)
    exact z2.set (h := w.heap) (fun t' h => by cases h; exact tab_ez z e1)
  | copyAssign i j =>
    obtain ⟨ti, e1, hs⟩ := Res.bind_eq_ok.mp hs
    obtain ⟨tj, e2, hs⟩ := Res.bind_eq_ok.mp hs
    split at hs
    · obtain ⟨⟨h2, t2⟩, e3, hs⟩ := Res.bind_eq_ok.mp hs
      simp at hs; subst hs
      refine z.set (fun t' h => ?_)
      cases h
      unfold selfAssign at e3
      refine copyAssign_ez ?_ e3
      split
      · exact null_ez
      · exact tab_ez z e1
    · obtain ⟨⟨h2, t2⟩, e3, hs⟩ := Res.bind_eq_ok.mp hs
      simp at hs; subst hs
      refine z.set (fun t' h => ?_)
      cases h
      exact copyAssign_ez (tab_ez z e2) e3
  | moveAssign i j =>
    obtain ⟨ti, e1, hs⟩ := Res.bind_eq_ok.mp hs
    obtain ⟨tj, e2, hs⟩ := Res.bind_eq_ok.mp hs
    split at hs
    · simp at hs; subst hs; exact z
    · simp [move] at hs; subst hs
      have z2 : (w.setTab j (some Table.null)).AllEZ := set1 (fun t' h => by cases h; exact null_ez)
      exact z2.set (h := w.heap) (fun t' h => by cases h; exact tab_ez z e2)
  | destroy i =>
    obtain ⟨t, e1, hs⟩ := Res.bind_eq_ok.mp hs
    obtain ⟨h2, e2, hs⟩ := Res.bind_eq_ok.mp hs
    simp at hs; subst hs
    exact z.set (fun t' h => by cases h)
  | insert i k =>
    obtain ⟨t, e1, hs⟩ := Res.bind_eq_ok.mp hs
    obtain ⟨⟨h2, t2, p, b⟩, e2, hs⟩ := Res.bind_eq_ok.mp hs
    simp at hs; subst hs
    exact z.set (fun t' h => by cases h; exact insert_ez (tab_ez z e1) e2)
  | assign i k v =>
    obtain ⟨t, e1, hs⟩ := Res.bind_eq_ok.mp hs
    obtain ⟨⟨h2, t2, p, b⟩, e2, hs⟩ := Res.bind_eq_ok.mp hs
    simp at hs; subst hs
    refine z.set (fun t' h => ?_)
    cases h
    obtain ⟨⟨h3, t3, p3, b3⟩, e3, e4⟩ := Res.bind_eq_ok.mp e2
    obtain ⟨h4, e5, e6⟩ := Res.bind_eq_ok.mp e4
    simp at e6
    rw [← e6.2.1]
    exact insert_ez (tab_ez z e1) e3
  | erase i k =>
    obtain ⟨t, e1, hs⟩ := Res.bind_eq_ok.mp hs
    obtain ⟨⟨h2, t2, b⟩, e2, hs⟩ := Res.bind_eq_ok.mp hs
    simp at hs; subst hs
    refine z.set (fun t' h => ?_)
    cases h
    obtain ⟨⟨t3, r3⟩, e3, e4⟩ := Res.bind_eq_ok.mp e2
    have z3 := eraseE_ez (tab_ez z e1) e3
    simp only at e4
    split at e4
    · simp at e4; rw [← e4.2.1]; exact z3
    · obtain ⟨_, _, e4⟩ := Res.bind_eq_ok.mp e4
      simp at e4; rw [← e4.2.1]; exact z3
  | find i k =>
    obtain ⟨t, e1, hs⟩ := Res.bind_eq_ok.mp hs
    obtain ⟨_, e2, hs⟩ := Res.bind_eq_ok.mp hs
    simp at hs; subst hs; exact z
  | clear i =>
    obtain ⟨t, e1, hs⟩ := Res.bind_eq_ok.mp hs
    obtain ⟨⟨h2, t2⟩, e2, hs⟩ := Res.bind_eq_ok.mp hs
    simp at hs; subst hs
    refine z.set (fun t' h => ?_)
    cases h
    unfold HashTable.clear at e2
    split at e2
    · simp at e2; rw [← e2.2]; exact tab_ez z e1
    · obtain ⟨_, _, e2⟩ := Res.bind_eq_ok.mp e2
      simp at e2; rw [← e2.2]; exact null_ez
  | rehash i =>
    obtain ⟨t, e1, hs⟩ := Res.bind_eq_ok.mp hs
    obtain ⟨t2, e2, hs⟩ := Res.bind_eq_ok.mp hs
    simp at hs; subst hs
    exact set1 (fun t' h => by cases h; exact mayRehash_ez (tab_ez z e1) e2)
  | rehashN i n =>
    obtain ⟨t, e1, hs⟩ := Res.bind_eq_ok.mp hs
    obtain ⟨t2, e2, hs⟩ := Res.bind_eq_ok.mp hs
    simp at hs; subst hs
    exact set1 (fun t' h => by cases h; exact doRehash_ez e2)

theorem run_ez {hash : K → UInt32} {dflt : V} : ∀ (ss : List (Stmt K V)) (w w' : World K V), w.AllEZ → run hash dflt w ss = .ok w' →
    w'.AllEZ := by
  intro ss
  induction ss with
  | nil => intro w w' z h; simp [run] at h; rw [← h]; exact z
  | cons s ss ih =>
    intro w w' z h
    obtain ⟨w1, e1, e2⟩ := Res.bind_eq_ok.mp h
    exact ih w1 w' (step_ez z e1) e2

theorem start_ez : (start : World K V).AllEZ := fun i t h => by simp [start] at h

/-- the chain of an unbound key -/
theorem chain_absent {hash : K → UInt32} {w : World K V} {j : Nat} {t : Table Nat} {m : FMap K V} (ht : w.tabs j = some t)
    (R : TRel hash w.heap t m) (z : w.AllEZ) (hi : t.init = true) {k : K} (hk : m.lookup k = none) :
    (hash k ≠ 0 → w.chainBegin hash j k = .ok .fin) ∧ (hash k = 0 → w.chainBegin hash j k = .ub .nullDeref) := by
  rcases R.good with rfl | W
  · cases hi
  · have hno : ∀ e ∈ t.entries, w.heap.keyOf e ≠ some k := by
      intro e he hek
      obtain ⟨v, _, h2⟩ := R.of_key he hek
      rw [hk] at h2; cases h2
    have hpos : 0 < t.nb := by have := W.room; omega
    have zt := z j t ht
    constructor
    · intro hh
      have : HashTable.chainBegin hash w.heap.keyOf t k = .ok none := by
        unfold HashTable.chainBegin
        rw [if_neg (by omega), chainBegin_none W.lay.live W.len _ hpos ?_]
        intro b hb hst
        obtain ⟨i, hi⟩ := List.mem_iff_getElem?.mp hb
        rcases hst with ⟨h1, h2⟩ | ⟨e', h1, _, h3⟩
        · exact hh (by rw [h2]; exact zt i b hi h1)
        · exact hno e' (mem_ents.mpr ⟨i, b, hi, h1⟩) h3
      simp [chainBegin, tab, ht, this, CIt.of]
    · intro hh
      simp [chainBegin, tab, ht, chainBegin_absent_zero W zt hno hh]

end World
end Eni
