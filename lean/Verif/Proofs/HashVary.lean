import Verif.Proofs.HashHistory
import Verif.Model.HashVary
import Verif.Spec.HashVary
/-!
# Tables whose hash function changes

Helper lemmas, no property statements. The table over keys `K` is compared with a ghost table over keys `K × UInt32` whose hash function is the second
component.
-/
set_option linter.unusedSectionVars false
set_option linter.unusedVariables false

namespace Eni
open Spec

variable {K V : Type} [DecidableEq K]

/-- the heap without the ghost hash values -/
def Heap.forget (g : Heap (K × UInt32) V) : Heap K V := ⟨g.next, fun a => (g.cells a).map fun c => ⟨c.key.1, c.val⟩⟩

theorem Heap.forget_keyOf (g : Heap (K × UInt32) V) (p : Nat) : g.forget.keyOf p = (g.keyOf p).map Prod.fst := by
  simp [Heap.keyOf, Heap.forget, Function.comp_def]

theorem Heap.forget_empty : (Heap.empty : Heap (K × UInt32) V).forget = Heap.empty := rfl

theorem Heap.forget_alloc (g : Heap (K × UInt32) V) (k : K) (x : UInt32) (v : V) :
    g.forget.alloc k v = ((g.alloc (k, x) v).1.forget, (g.alloc (k, x) v).2) := by
  simp only [Heap.alloc, Heap.forget, Prod.mk.injEq, Heap.mk.injEq, true_and, and_true]
  funext a
  by_cases ha : a = g.next <;> simp [ha]

theorem Heap.forget_free {g g' : Heap (K × UInt32) V} {p : Nat} (h : g.free p = .ok g') : g.forget.free p = .ok g'.forget := by
  unfold Heap.free at h ⊢
  cases hc : g.cells p with
  | none => simp [hc] at h
  | some c =>
    simp only [hc, Res.ok.injEq] at h
    subst h
    simp only [Heap.forget, hc, Option.map_some]
    congr 2
    funext a
    split <;> rfl

theorem Heap.forget_freeAll : ∀ (ps : List Nat) {g g' : Heap (K × UInt32) V}, g.freeAll ps = .ok g' → g.forget.freeAll ps = .ok g'.forget := by
  intro ps
  induction ps with
  | nil => intro g g' h; cases h; rfl
  | cons p ps ih =>
    intro g g' h
    simp only [Heap.freeAll, Res.bind_eq_ok] at h
    obtain ⟨g1, h1, h2⟩ := h
    simp [Heap.freeAll, Heap.forget_free h1, ih h2]

theorem Heap.forget_setVal {g g' : Heap (K × UInt32) V} {p : Nat} {v : V} (h : g.setVal p v = .ok g') :
    g.forget.setVal p v = .ok g'.forget := by
  unfold Heap.setVal at h ⊢
  cases hc : g.cells p with
  | none => simp [hc] at h
  | some c =>
    simp only [hc, Res.ok.injEq] at h
    subst h
    simp only [Heap.forget, hc, Option.map_some]
    congr 2
    funext a
    split <;> rfl

theorem Heap.forget_setKey {g g' : Heap (K × UInt32) V} {p : Nat} {k : K} {x : UInt32} (h : g.setKey p (k, x) = .ok g') :
    g.forget.setKey p k = .ok g'.forget := by
  unfold Heap.setKey at h ⊢
  cases hc : g.cells p with
  | none => simp [hc] at h
  | some c =>
    simp only [hc, Res.ok.injEq] at h
    subst h
    simp only [Heap.forget, hc, Option.map_some]
    congr 2
    funext a
    split <;> rfl

theorem Heap.forget_getVal {g : Heap (K × UInt32) V} {p : Nat} {v : V} (h : g.getVal p = .ok v) : g.forget.getVal p = .ok v := by
  unfold Heap.getVal at h ⊢
  cases hc : g.cells p with
  | none => simp [hc] at h
  | some c => simp only [hc] at h; simpa [Heap.forget, hc] using h

namespace Table

/-- every entry carries the hash value of its bucket -/
def Tagged {E : Type} (keyOf : E → Option (K × UInt32)) (bs : List (Bucket E)) : Prop :=
  ∀ b ∈ bs, ∀ e, b.slot = .full e → ∃ c, keyOf e = some (c, b.hash)

theorem Good.tagged {E : Type} {keyOf : E → Option (K × UInt32)} {t : Table E} (G : Good Prod.snd keyOf t) : Tagged keyOf t.buckets := by
  intro b hb e he
  rcases G with rfl | W
  · simp [null] at hb
  · obtain ⟨⟨c, x⟩, h1, h2⟩ := W.lay.hashOk b hb e he
    exact ⟨c, by rw [h1, h2]⟩

theorem findLoop_forget {E : Type} {keyOf : E → Option K} {keyOf' : E → Option (K × UInt32)} (hk : ∀ e, keyOf e = (keyOf' e).map Prod.fst)
    {bs : List (Bucket E)} (T : Tagged keyOf' bs) (nb : Nat) (x : UInt32) (k : K) :
    ∀ fuel i, findLoop keyOf bs nb x k fuel i = findLoop keyOf' bs nb x (k, x) fuel i := by
  intro fuel
  induction fuel with
  | zero => intro i; rfl
  | succ fuel ih =>
    intro i
    simp only [findLoop, ih]
    cases hb : bs[i]? with
    | none => rfl
    | some b =>
      simp only
      cases hs : b.slot with
      | empty => rfl
      | tomb => rfl
      | full e =>
        obtain ⟨c, hc⟩ := T b (List.mem_of_getElem? hb) e hs
        simp only [hk, hc, Option.map_some]
        by_cases hx : b.hash = x
        · simp [hx]
        · simp [hx]

theorem lookupLoop_forget {E : Type} {keyOf : E → Option K} {keyOf' : E → Option (K × UInt32)} (hk : ∀ e, keyOf e = (keyOf' e).map Prod.fst)
    {bs : List (Bucket E)} (T : Tagged keyOf' bs) (nb : Nat) (x : UInt32) (k : K) :
    ∀ fuel i ft, lookupLoop keyOf bs nb x k fuel i ft = lookupLoop keyOf' bs nb x (k, x) fuel i ft := by
  intro fuel
  induction fuel with
  | zero => intro i ft; rfl
  | succ fuel ih =>
    intro i ft
    simp only [lookupLoop, ih]
    cases hb : bs[i]? with
    | none => rfl
    | some b =>
      simp only
      cases hs : b.slot with
      | empty => rfl
      | tomb => rfl
      | full e =>
        obtain ⟨c, hc⟩ := T b (List.mem_of_getElem? hb) e hs
        simp only [hk, hc, Option.map_some]
        by_cases hx : b.hash = x
        · simp [hx]
        · simp [hx]

theorem findKey_forget {E : Type} {keyOf : E → Option K} {keyOf' : E → Option (K × UInt32)} (hk : ∀ e, keyOf e = (keyOf' e).map Prod.fst)
    {t : Table E} (T : Tagged keyOf' t.buckets) (f : K → UInt32) (k : K) :
    findKey f keyOf t k = findKey Prod.snd keyOf' t (k, f k) := by
  simp only [findKey, findLoop_forget hk T]

theorem lookupBucketFor_forget {E : Type} {keyOf : E → Option K} {keyOf' : E → Option (K × UInt32)}
    (hk : ∀ e, keyOf e = (keyOf' e).map Prod.fst) {t : Table E} (T : Tagged keyOf' t.buckets) (f : K → UInt32) (k : K) :
    lookupBucketFor f keyOf t k = lookupBucketFor Prod.snd keyOf' t (k, f k) := by
  have T' : Tagged keyOf' (if t.init = false then (initTable 16 : Table E) else t).buckets := by
    split
    · intro b hb e he
      simp only [initTable] at hb
      rw [List.eq_of_mem_replicate hb] at he
      cases he
    · exact T
  simp only [lookupBucketFor, lookupLoop_forget hk T']

end Table

namespace HashTable

variable {f : K → UInt32} {dflt : V} {g g' : Heap (K × UInt32) V} {t t' : Table Nat} {m : FMap (K × UInt32) V}

theorem find_forget (G : Table.Good Prod.snd g.keyOf t) (k : K) : find f g.forget t k = find Prod.snd g t (k, f k) := by
  simp only [find, Table.findE, Table.findKey_forget g.forget_keyOf G.tagged]

theorem lookup_forget (G : Table.Good Prod.snd g.keyOf t) (k : K) {r : Option V} (h : lookup Prod.snd g t (k, f k) = .ok r) :
    lookup f g.forget t k = .ok r := by
  simp only [lookup, find_forget G] at h ⊢
  cases hf : find Prod.snd g t (k, f k) with
  | ok o =>
    cases o with
    | none => simpa [hf] using h
    | some p =>
      simp only [hf, Res.ok_bind, Res.bind_eq_ok] at h ⊢
      obtain ⟨v, h1, h2⟩ := h
      exact ⟨v, Heap.forget_getVal h1, h2⟩
  | _ => simp [hf] at h

theorem insert_forget (G : Table.Good Prod.snd g.keyOf t) {k : K} {p : Nat} {ex : Bool}
    (h : insert Prod.snd dflt g t (k, f k) = .ok (g', t', p, ex)) : insert f dflt g.forget t k = .ok (g'.forget, t', p, ex) := by
  have he : Table.insertE f g.forget.keyOf t k g.next = Table.insertE Prod.snd g.keyOf t (k, f k) g.next := by
    simp only [Table.insertE, Table.lookupBucketFor_forget g.forget_keyOf G.tagged]
  unfold insert at h ⊢
  rw [Heap.forget_alloc g k (f k) dflt]
  simp only [Heap.alloc] at h ⊢
  rw [he]
  rw [Res.bind_eq_ok] at h
  obtain ⟨⟨t2, i, b⟩, h1, h2⟩ := h
  rw [h1]
  simp only [Res.ok_bind] at h2 ⊢
  cases b with
  | false =>
    simp only [Bool.false_eq_true, if_false, Res.ok.injEq, Prod.mk.injEq] at h2 ⊢
    obtain ⟨rfl, h3⟩ := h2
    exact ⟨rfl, h3⟩
  | true =>
    simp only [if_true] at h2 ⊢
    split at h2
    · simp only [Res.ok.injEq, Prod.mk.injEq] at h2
      obtain ⟨rfl, rfl, rfl, rfl⟩ := h2
      rfl
    · cases h2

/-- the operation on pairs -/
def tagOp (f : K → UInt32) : TOp K V → TOp (K × UInt32) V
  | .insert k => .insert (k, f k)
  | .assign k v => .assign (k, f k) v
  | .erase k => .erase (k, f k)
  | .find k => .find (k, f k)
  | .clear => .clear
  | .rehash => .rehash
  | .rehashN n => .rehashN n

theorem step_forget (G : Table.Good Prod.snd g.keyOf t) {o : TOp K V} {r : TRet V}
    (h : step Prod.snd dflt g t (tagOp f o) = .ok (g', t', r)) : step f dflt g.forget t o = .ok (g'.forget, t', r) := by
  cases o with
  | insert k =>
    simp only [tagOp, step, Res.bind_eq_ok] at h
    obtain ⟨⟨g1, t1, p, ex⟩, h1, v, h2, h3⟩ := h
    simp only [Res.ok.injEq, Prod.mk.injEq] at h3
    obtain ⟨rfl, rfl, rfl⟩ := h3
    simp [step, insert_forget G h1, Heap.forget_getVal h2]
  | assign k v =>
    simp only [tagOp, step, assign, Res.bind_eq_ok] at h
    obtain ⟨⟨g1, t1, p, ex⟩, ⟨⟨g0, t0, p0, ex0⟩, h0, g2, h4, h5⟩, v, h2, h3⟩ := h
    simp only [Res.ok.injEq, Prod.mk.injEq] at h3 h5
    obtain ⟨rfl, rfl, rfl, rfl⟩ := h5
    obtain ⟨rfl, rfl, rfl⟩ := h3
    simp [step, assign, insert_forget G h0, Heap.forget_setVal h4, Heap.forget_getVal h2]
  | erase k =>
    have he : Table.eraseE f g.forget.keyOf t k = Table.eraseE Prod.snd g.keyOf t (k, f k) := by
      simp only [Table.eraseE, Table.findKey_forget g.forget_keyOf G.tagged]
    simp only [tagOp, step, erase, Res.bind_eq_ok] at h
    obtain ⟨⟨g1, t1, b⟩, ⟨⟨t0, o⟩, h0, h4⟩, h3⟩ := h
    simp only [Res.ok.injEq, Prod.mk.injEq] at h3
    obtain ⟨rfl, rfl, rfl⟩ := h3
    cases o with
    | none =>
      simp only [Res.ok.injEq, Prod.mk.injEq] at h4
      obtain ⟨rfl, rfl, rfl⟩ := h4
      simp [step, erase, he, h0]
    | some p =>
      simp only [Res.bind_eq_ok] at h4
      obtain ⟨g2, h5, h6⟩ := h4
      simp only [Res.ok.injEq, Prod.mk.injEq] at h6
      obtain ⟨rfl, rfl, rfl⟩ := h6
      simp [step, erase, he, h0, Heap.forget_free h5]
  | find k =>
    simp only [tagOp, step, Res.bind_eq_ok] at h
    obtain ⟨o, h1, h3⟩ := h
    simp only [Res.ok.injEq, Prod.mk.injEq] at h3
    obtain ⟨rfl, rfl, rfl⟩ := h3
    simp [step, lookup_forget G k h1]
  | clear =>
    simp only [tagOp, step, clear, Res.bind_eq_ok] at h
    obtain ⟨⟨g1, t1⟩, h1, h3⟩ := h
    simp only [Res.ok.injEq, Prod.mk.injEq] at h3
    obtain ⟨rfl, rfl, rfl⟩ := h3
    simp only [step, clear]
    split at h1
    · cases h1; simp [*]
    · simp only [Res.bind_eq_ok] at h1
      obtain ⟨g2, h5, h6⟩ := h1
      cases h6
      simp [*, Heap.forget_freeAll _ h5]
  | rehash =>
    simp only [tagOp, step, Res.bind_eq_ok] at h
    obtain ⟨t1, h1, h3⟩ := h
    cases h3
    simp [step, h1]
  | rehashN n =>
    simp only [tagOp, step, Res.bind_eq_ok] at h
    obtain ⟨t1, h1, h3⟩ := h
    cases h3
    simp [step, h1]

/-- overwriting a key on the ghost table -/
theorem setKey_sim (R : TRel Prod.snd g t m) (F : g.Fresh) {p : Nat} {k k2 : K} {x : UInt32} {v : V} (hp : p ∈ t.entries)
    (hc : g.cells p = some ⟨(k, x), v⟩) (hn : k2 = k ∨ m.lookup (k2, x) = none) :
    ∃ g', g.setKey p (k2, x) = .ok g' ∧ TRel Prod.snd g' t (((k2, x), v) :: m.erase (k, x)) ∧ HStep g t g' t ∧
      g'.cells p = some ⟨(k2, x), v⟩ := by
  have hk : g.keyOf p = some (k, x) := by simp [Heap.keyOf, hc]
  obtain ⟨v1, hc1, hl⟩ := R.of_key hp hk
  have hv1 : v1 = v := by rw [hc] at hc1; simpa using hc1.symm
  subst hv1
  have hpn := R.lt_next F hp
  have he : t.entries.Perm (p :: t.entries.erase p) := List.perm_cons_erase hp
  have hnd := he.nodup_iff.mp R.nodup_addr
  rw [List.nodup_cons] at hnd
  have habs : (t.entries.map fun a => if a = p then some (⟨(k2, x), v1⟩ : Cell (K × UInt32) V) else g.cells a).Perm
      ((((k2, x), v1) :: m.erase (k, x)).map bcell) := by
    have h1 := (he.map g.cells).symm.trans (R.abs.trans ((FMap.perm_erase R.functional hl).map bcell))
    simp only [List.map_cons, hc, bcell] at h1
    have h2 := (List.perm_cons _).mp h1
    refine (he.map _).trans ?_
    simp only [List.map_cons, if_true, bcell]
    refine List.Perm.cons _ ?_
    rw [List.map_congr_left (g := g.cells)]
    · exact h2
    · intro a ha
      rw [if_neg]
      rintro rfl
      exact hnd.1 ha
  refine ⟨⟨g.next, fun a => if a = p then some ⟨(k2, x), v1⟩ else g.cells a⟩, ?_, ⟨?_, habs⟩, ⟨?_, ?_, ?_, ?_, ?_⟩, ?_⟩
  · simp [Heap.setKey, hc]
  · rcases R.good with rfl | W
    · simp [Table.entries, Table.null] at hp
    · refine Or.inr ⟨W.init, W.len, ⟨?_, W.lay.reach, ?_⟩, W.ne_eq, W.nt_eq, W.room, W.small⟩
      · intro b hb e hs
        obtain ⟨y, h1, h2⟩ := W.lay.hashOk b hb e hs
        by_cases hep : e = p
        · subst hep
          rw [hk] at h1
          cases h1
          exact ⟨(k2, x), by simp [Heap.keyOf], h2⟩
        · exact ⟨y, by simpa [Heap.keyOf, hep] using h1, h2⟩
      · have hf : FMap.Functional (((k2, x), v1) :: m.erase (k, x)) := by
          simp only [FMap.Functional, List.map_cons, List.nodup_cons]
          refine ⟨?_, R.functional.erase _⟩
          intro hmem
          obtain ⟨⟨q, w⟩, h1, h2⟩ := List.mem_map.mp hmem
          simp only at h2
          subst h2
          have h3 := List.mem_filter.mp h1
          rcases hn with rfl | hn
          · simp at h3
          · exact (FMap.lookup_none_iff.mp hn) w h3.1
        have h4 := (habs.map (Option.map Cell.key)).nodup_iff.mpr (by
          have h5 : (((((k2, x), v1) :: m.erase (k, x)).map bcell).map (Option.map Cell.key))
              = ((((k2, x), v1) :: m.erase (k, x)).map Prod.fst).map some := by
            rw [List.map_map, List.map_map]; rfl
          rw [h5]
          exact hf.map (fun a b h => Option.some.inj h))
        rw [List.map_map] at h4
        exact h4
  · exact Nat.le_refl _
  · intro q hq
    simp only at hq ⊢
    rw [if_neg (by omega)]
    exact F q hq
  · intro q _ hq
    simp only
    rw [if_neg]
    rintro rfl
    exact hq hp
  · intro q hq; exact Or.inl hq
  · intro q hq
    by_cases hqe : q ∈ t.entries
    · exact Or.inl hqe
    · refine Or.inr ⟨?_, hqe⟩
      rcases Nat.lt_or_ge q g.next with h1 | h1
      · exact h1
      · exfalso; apply hq; simp only; rw [if_neg (by omega)]; exact F q h1
  · simp

theorem clear_forget {g' : Heap (K × UInt32) V} {t' : Table Nat} (h : clear g t = .ok (g', t')) : clear g.forget t = .ok (g'.forget, t') := by
  unfold clear at h ⊢
  split at h
  · cases h; simp [*]
  · simp only [Res.bind_eq_ok] at h
    obtain ⟨g2, h5, h6⟩ := h
    cases h6
    simp [*, Heap.forget_freeAll _ h5]

theorem hvstep_tag (o : TOp K V) : hvstep dflt f m (.op o) = tstep dflt m (tagOp f o) := by
  cases o <;> rfl

theorem hVPre_tag {o : TOp K V} (h : HVPre f m (.op o)) : TPre m (tagOp f o) := by
  cases o <;> exact h

theorem stepV_sim (R : TRel Prod.snd g t m) (F : g.Fresh) (hm : m.length ≤ 1073643498) (op : HVOp K V) (hp : HVPre f m op) :
    ∃ g' t', stepV f dflt g.forget t op = .ok (g'.forget, t', (hvstep dflt f m op).2) ∧ TRel Prod.snd g' t' (hvstep dflt f m op).1 ∧
      HStep g t g' t' ∧ (hvstep dflt f m op).1.length ≤ 1073643498 := by
  cases op with
  | op o =>
    obtain ⟨g', t', h1, h2, h3, _⟩ := step_sim (dflt := dflt) R F hm (tagOp f o) (hVPre_tag hp)
    rw [hvstep_tag]
    exact ⟨g', t', step_forget R.good h1, h2, h3, tstep_length R.functional hm _ (hVPre_tag hp)⟩
  | rekey k k2 =>
    simp only [stepV, find_forget R.good, hvstep]
    rcases (find_sim R (k, f k)).symm with ⟨p, v, h1, h2, h3, h4⟩ | ⟨h1, h2⟩
    · obtain ⟨g', e1, e2, e3, e4⟩ := setKey_sim R F h2 h3 hp
      have hg : g'.getVal p = .ok v := by simp [Heap.getVal, e4]
      refine ⟨g', t, ?_, ?_, e3, ?_⟩
      · simp [h1, h4, Heap.forget_setKey e1, Heap.forget_getVal hg]
      · simpa [h4] using e2
      · have h5 := (FMap.perm_erase R.functional h4).length_eq
        simp only [h4, List.length_cons] at h5 ⊢
        omega
    · refine ⟨g, t, ?_, ?_, HStep.refl F (List.Perm.refl _), ?_⟩
      · simp [h1, h2]
      · simpa [h2] using R
      · simpa [h2] using hm

theorem runV_sim : ∀ (ops : List ((K → UInt32) × HVOp K V)) (g : Heap (K × UInt32) V) (t : Table Nat) (m : FMap (K × UInt32) V),
    TRel Prod.snd g t m → g.Fresh → m.length ≤ 1073643498 → HVPres dflt m ops →
    ∃ g' t', runV dflt g.forget t ops = .ok (g'.forget, t', (hvruns dflt m ops).2) ∧ TRel Prod.snd g' t' (hvruns dflt m ops).1 ∧
      g'.Fresh ∧ HStep g t g' t' := by
  intro ops
  induction ops with
  | nil => intro g t m R F hm _; exact ⟨g, t, rfl, R, F, HStep.refl F (List.Perm.refl _)⟩
  | cons a ops ih =>
    obtain ⟨f, op⟩ := a
    intro g t m R F hm hp
    obtain ⟨g1, t1, e1, R1, S1, l1⟩ := stepV_sim (f := f) (dflt := dflt) R F hm op hp.1
    obtain ⟨g2, t2, e2, R2, F2, S2⟩ := ih g1 t1 _ R1 S1.fresh l1 hp.2
    exact ⟨g2, t2, by simp [runV, e1, e2, hvruns], R2, F2, S1.trans S2⟩

end HashTable
end Eni
