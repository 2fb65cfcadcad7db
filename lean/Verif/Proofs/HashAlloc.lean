import Verif.Model.HashAlloc
import Verif.Proofs.HashHistory
/-!
# Hash tables when memory is refused

Helper lemmas, no property statements.
-/
set_option linter.unusedSectionVars false
set_option linter.unusedVariables false

namespace Eni
open Spec
variable {E K V : Type} [DecidableEq K]

namespace Table

/-- a table whose array was refused -/
structure Lost (t : Table E) : Prop where
  init : t.init = false
  buckets : t.buckets = []
  ne : t.ne = 0
  nt : t.nt = 0

theorem Lost.entries {t : Table E} (L : Lost t) : t.entries = [] := by simp [Table.entries, L.buckets]

theorem lookupBucketForA_cases (g : Bool) (hash : K → UInt32) (keyOf : E → Option K) (t : Table E) (k : K) :
    lookupBucketForA g hash keyOf t k = .ub .nullDeref ∨ lookupBucketForA g hash keyOf t k = lookupBucketFor hash keyOf t k := by
  unfold lookupBucketForA
  split
  · cases g <;> simp
  · exact Or.inr rfl

theorem lookupBucketFor_uninit {hash : K → UInt32} {keyOf : E → Option K} {t : Table E} (h : t.init = false) (k : K) :
    lookupBucketFor hash keyOf t k = lookupBucketFor hash keyOf null k := by
  unfold lookupBucketFor
  simp [h, null]

theorem doRehashA_cases (g : Bool) (t : Table E) (n : Nat) :
    (∃ u, doRehashA g t n = .ub u) ∨ doRehashA g t n = doRehash t n ∨
      (doRehashA g t n = .ok ⟨false, [], n, t.ne, 0⟩ ∧ t.entries = []) := by
  unfold doRehashA
  split
  · exact Or.inl ⟨_, rfl⟩
  · cases g
    · simp only [Bool.false_eq_true, if_false]
      split
      · rename_i h
        exact Or.inr (Or.inr ⟨rfl, List.isEmpty_iff.mp h⟩)
      · split <;> exact Or.inl ⟨_, rfl⟩
    · exact Or.inr (Or.inl (by simp))

theorem doRehashA_true (t : Table E) (n : Nat) : doRehashA true t n = doRehash t n := by
  unfold doRehashA
  split
  · unfold doRehash; rw [if_pos ‹_›]
  · simp

theorem mayRehashA_true (t : Table E) : mayRehashA true t = mayRehash t := by
  unfold mayRehashA mayRehash
  simp only [doRehashA_true]

theorem mayRehashA_cases (g : Bool) (t : Table E) :
    (∃ u, mayRehashA g t = .ub u) ∨ mayRehashA g t = mayRehash t ∨
      (∃ n, mayRehashA g t = .ok ⟨false, [], n, t.ne, 0⟩ ∧ t.entries = []) := by
  unfold mayRehashA mayRehash
  split
  · rcases doRehashA_cases g t (computeBucketSize t.nb) with h | h | ⟨h, h'⟩
    · exact Or.inl h
    · exact Or.inr (Or.inl h)
    · exact Or.inr (Or.inr ⟨_, h, h'⟩)
  · split
    · rcases doRehashA_cases g t t.nb with h | h | ⟨h, h'⟩
      · exact Or.inl h
      · exact Or.inr (Or.inl h)
      · exact Or.inr (Or.inr ⟨_, h, h'⟩)
    · exact Or.inr (Or.inl rfl)

theorem insertEA_all (hash : K → UInt32) (keyOf : E → Option K) (t : Table E) (k : K) (mk : E) :
    insertEA .all hash keyOf t k mk = insertE hash keyOf t k mk := by
  have h1 : lookupBucketForA true hash keyOf t k = lookupBucketFor hash keyOf t k := by
    unfold lookupBucketForA; split <;> simp
  unfold insertEA insertE Grant.all
  simp only [h1, mayRehashA_true, if_true]
  rfl

theorem eraseEA_all (hash : K → UInt32) (keyOf : E → Option K) (t : Table E) (k : K) : eraseEA .all hash keyOf t k = eraseE hash keyOf t k := by
  unfold eraseEA eraseE Grant.all
  simp only [mayRehashA_true]
  congr 1

/-- an insertion does what it does with all memory granted, or is undefined -/
theorem insertEA_cases (g : Grant) (hash : K → UInt32) (keyOf : E → Option K) (t : Table E) (k : K) (mk : E) :
    (∃ u, insertEA g hash keyOf t k mk = .ub u) ∨ insertEA g hash keyOf t k mk = insertE hash keyOf t k mk := by
  unfold insertEA insertE
  rcases lookupBucketForA_cases g.arr hash keyOf t k with h | h
  · rw [h]; exact Or.inl ⟨_, rfl⟩
  · rw [h]
    cases lookupBucketFor hash keyOf t k with
    | ub u => exact Or.inl ⟨u, rfl⟩
    | throw e => exact Or.inr rfl
    | diverge => exact Or.inr rfl
    | exit c => exact Or.inr rfl
    | ok r =>
      obtain ⟨t1, i⟩ := r
      simp only [Res.ok_bind]
      cases hb : t1.buckets[i]? with
      | none => exact Or.inl ⟨_, rfl⟩
      | some b =>
        simp only
        have key : ∀ u : Table E, u.buckets = t1.buckets.set i { b with slot := .full mk } →
            (∃ x, (mayRehashA g.re u >>= fun t' => Res.ok (t', i, false)) = .ub x) ∨
            (mayRehashA g.re u >>= fun t' => Res.ok (t', i, false)) = (mayRehash u >>= fun t' => Res.ok (t', i, false)) := by
          intro u hu
          rcases mayRehashA_cases g.re u with ⟨x, h⟩ | h | ⟨n, h, h'⟩
          · rw [h]; exact Or.inl ⟨x, rfl⟩
          · rw [h]; exact Or.inr rfl
          · have hm : mk ∈ u.entries := by
              rw [entries_eq, mem_ents, hu]
              exact ⟨i, _, List.getElem?_set_self (lt_of_get hb), rfl⟩
            rw [h'] at hm; cases hm
        cases hs : b.slot with
        | full e => exact Or.inr rfl
        | empty =>
          simp only
          cases g.entry with
          | false => exact Or.inl ⟨_, rfl⟩
          | true => exact key _ rfl
        | tomb =>
          simp only
          cases g.entry with
          | false => exact Or.inl ⟨_, rfl⟩
          | true => exact key _ rfl

theorem throw_bind {α β : Type} (e : Exc) (f f' : α → Res β) : ((.throw e : Res α) >>= f) = ((.throw e : Res α) >>= f') := rfl
theorem diverge_bind {α β : Type} (f f' : α → Res β) : ((.diverge : Res α) >>= f) = ((.diverge : Res α) >>= f') := rfl
theorem exit_bind {α β : Type} (c : Nat) (f f' : α → Res β) : ((.exit c : Res α) >>= f) = ((.exit c : Res α) >>= f') := rfl

/-- a removal does what it does with all memory granted, is undefined, or loses the array of a table that has become empty -/
theorem eraseEA_cases (g : Grant) (hash : K → UInt32) (keyOf : E → Option K) (t : Table E) (k : K) :
    (∃ u, eraseEA g hash keyOf t k = .ub u) ∨ eraseEA g hash keyOf t k = eraseE hash keyOf t k ∨
      (∃ n ne e u, eraseEA g hash keyOf t k = .ok (⟨false, [], n, ne, 0⟩, some e) ∧ u.entries = [] ∧ u.ne = ne ∧
        eraseE hash keyOf t k = (mayRehash u >>= fun t' => .ok (t', some e))) := by
  unfold eraseEA eraseE
  cases findKey hash keyOf t k with
  | ub u => exact Or.inl ⟨u, rfl⟩
  | throw e => exact Or.inr (Or.inl (throw_bind e _ _))
  | diverge => exact Or.inr (Or.inl (diverge_bind _ _))
  | exit c => exact Or.inr (Or.inl (exit_bind c _ _))
  | ok o =>
    simp only [Res.ok_bind]
    cases o with
    | none => exact Or.inr (Or.inl rfl)
    | some i =>
      simp only
      by_cases hi : i < 2147483648
      · simp only [if_pos hi]
        cases hb : t.buckets[i]? with
        | none => exact Or.inl ⟨_, rfl⟩
        | some b =>
          simp only
          cases b.slot with
          | empty => exact Or.inl ⟨_, rfl⟩
          | tomb => exact Or.inl ⟨_, rfl⟩
          | full e =>
            simp only
            rcases mayRehashA_cases g.re { t with buckets := t.buckets.set i { b with slot := .tomb }, ne := sub32 t.ne 1, nt := w32 (t.nt + 1) } with
              ⟨x, h⟩ | h | ⟨n, h, h'⟩
            · rw [h]; exact Or.inl ⟨x, rfl⟩
            · rw [h]; exact Or.inr (Or.inl rfl)
            · rw [h]; exact Or.inr (Or.inr ⟨n, _, e, _, rfl, h', rfl, rfl⟩)
      · simp only [if_neg hi]; exact Or.inl ⟨_, rfl⟩

theorem doRehash_entries {t t' : Table E} {n : Nat} (h : doRehash t n = .ok t') (he : t.entries = []) : t'.entries = [] := by
  unfold doRehash at h
  split at h
  · cases h
  · obtain ⟨bs, h1, h2⟩ := Res.bind_eq_ok.mp h
    simp at h2
    subst h2
    have key : ∀ (l acc r : List (Bucket E)), ents l = [] → rehashInto n l acc = .ok r → r = acc := by
      intro l
      induction l with
      | nil => intro acc r _ h; simp [rehashInto] at h; exact h.symm
      | cons b l ih =>
        intro acc r hl h
        rcases b with ⟨bh, s⟩
        cases s with
        | empty => exact ih acc r (by rwa [ents_empty] at hl) h
        | tomb => exact ih acc r (by rwa [ents_tomb] at hl) h
        | full e => rw [ents_full] at hl; cases hl
    have hl : ents (t.buckets.take t.nb) = [] := by
      rw [entries_eq] at he
      rw [List.eq_nil_iff_forall_not_mem] at he ⊢
      intro e hm
      obtain ⟨i, b, hi, hs⟩ := mem_ents.mp hm
      refine he e (mem_ents.mpr ⟨i, b, ?_, hs⟩)
      rw [List.getElem?_take] at hi
      split at hi
      · exact hi
      · cases hi
    have := key _ _ _ hl h1
    subst this
    rw [entries_eq]
    exact ents_replicate n

theorem mayRehash_entries {t t' : Table E} (h : mayRehash t = .ok t') (he : t.entries = []) : t'.entries = [] := by
  unfold mayRehash at h
  split at h
  · exact doRehash_entries h he
  · split at h
    · exact doRehash_entries h he
    · simp at h; rw [← h]; exact he

end Table

namespace HashTable
open Table
variable {hash : K → UInt32} {dflt : V} {h : Heap K V} {t : Table Nat} {m : FMap K V}

/-- the table stands for the map, or it has lost its array and the map is empty -/
def ARel (hash : K → UInt32) (h : Heap K V) (t : Table Nat) (m : FMap K V) : Prop := TRel hash h t m ∨ (Lost t ∧ m = [])

theorem null_rel : TRel hash h (Table.null : Table Nat) ([] : FMap K V) := ⟨Or.inl rfl, by simp [Table.entries, Table.null]⟩

theorem _root_.Eni.TRel.nil_of {t : Table Nat} (R : TRel hash h t m) (he : t.entries = []) : m = [] := by
  have := R.abs.length_eq
  rw [he] at this
  exact List.length_eq_zero_iff.mp (by simpa using this.symm)

theorem insertA_cases (g : Grant) (hash : K → UInt32) (dflt : V) (h : Heap K V) (t : Table Nat) (k : K) :
    (∃ u, insertA g hash dflt h t k = .ub u) ∨ insertA g hash dflt h t k = insert hash dflt h t k := by
  unfold insertA insert
  simp only
  rcases insertEA_cases g hash h.keyOf t k (h.alloc k dflt).2 with ⟨u, hh⟩ | hh
  · rw [hh]; exact Or.inl ⟨u, rfl⟩
  · rw [hh]; exact Or.inr rfl

theorem insert_lost (L : Lost t) (k : K) : insert hash dflt h t k = insert hash dflt h Table.null k := by
  unfold insert Table.insertE
  simp only [lookupBucketFor_uninit L.init k]

theorem ub_bind {α β : Type} (u : UB) (f : α → Res β) : ((.ub u : Res α) >>= f) = .ub u := rfl

/-- the insertions of `stepA` and `step` -/
theorem stepA_insert_cases (g : Grant) (op : TOp K V) (hop : (∃ k, op = .insert k) ∨ ∃ k v, op = .assign k v) :
    (∃ u, stepA g hash dflt h t op = .ub u) ∨ stepA g hash dflt h t op = step hash dflt h t op := by
  rcases hop with ⟨k, rfl⟩ | ⟨k, v, rfl⟩
  · simp only [stepA, step]
    rcases insertA_cases g hash dflt h t k with ⟨u, hh⟩ | hh
    · rw [hh]; exact Or.inl ⟨u, rfl⟩
    · rw [hh]; exact Or.inr rfl
  · simp only [stepA, step, assignA, assign]
    rcases insertA_cases g hash dflt h t k with ⟨u, hh⟩ | hh
    · rw [hh]; exact Or.inl ⟨u, rfl⟩
    · rw [hh]; exact Or.inr rfl

theorem step_insert_lost (L : Lost t) (op : TOp K V) (hop : (∃ k, op = .insert k) ∨ ∃ k v, op = .assign k v) :
    step hash dflt h t op = step hash dflt h Table.null op := by
  rcases hop with ⟨k, rfl⟩ | ⟨k, v, rfl⟩
  · simp only [step, insert_lost L]
  · simp only [step, assign, insert_lost L]

theorem stepA_sim (g : Grant) (A : ARel hash h t m) (F : h.Fresh) (hm : m.length ≤ 1073643498) (op : TOp K V) (hp : TPre m op) :
    (∃ u, stepA g hash dflt h t op = .ub u) ∨
    ∃ h' t', stepA g hash dflt h t op = .ok (h', t', (tstep dflt m op).2) ∧ ARel hash h' t' (tstep dflt m op).1 ∧ h'.Fresh := by
  -- outcomes that are those of the table with memory
  have same : ∀ u : Table Nat, TRel hash h u m → stepA g hash dflt h t op = step hash dflt h u op →
      ∃ h' t', stepA g hash dflt h t op = .ok (h', t', (tstep dflt m op).2) ∧ ARel hash h' t' (tstep dflt m op).1 ∧ h'.Fresh := by
    intro u R he
    obtain ⟨h', t', e1, R', S, _⟩ := step_sim (dflt := dflt) R F hm op hp
    exact ⟨h', t', by rw [he, e1], Or.inl R', S.fresh⟩
  have ins : ((∃ k, op = .insert k) ∨ ∃ k v, op = .assign k v) → (∃ u, stepA g hash dflt h t op = .ub u) ∨
      ∃ h' t', stepA g hash dflt h t op = .ok (h', t', (tstep dflt m op).2) ∧ ARel hash h' t' (tstep dflt m op).1 ∧ h'.Fresh := by
    intro hop
    rcases stepA_insert_cases (hash := hash) (dflt := dflt) (h := h) (t := t) g op hop with hu | he
    · exact Or.inl hu
    · right
      rcases A with R | ⟨L, rfl⟩
      · exact same t R he
      · exact same Table.null null_rel (by rw [he, step_insert_lost L op hop])
  cases op with
  | insert k => exact ins (Or.inl ⟨k, rfl⟩)
  | assign k v => exact ins (Or.inr ⟨k, v, rfl⟩)
  | find k =>
    right
    rcases A with R | ⟨L, rfl⟩
    · exact same t R rfl
    · exact ⟨h, t, by simp [stepA, lookup, find, findE, findKey, L.init, tstep, FMap.lookup], Or.inr ⟨L, rfl⟩, F⟩
  | clear =>
    right
    rcases A with R | ⟨L, rfl⟩
    · exact same t R rfl
    · exact ⟨h, t, by simp [stepA, clear, L.ne, tstep], Or.inr ⟨L, rfl⟩, F⟩
  | erase k =>
    rcases A with R | ⟨L, rfl⟩
    · rcases eraseEA_cases g hash h.keyOf t k with ⟨u, he⟩ | he | ⟨n, ne, e, u, h1, h2, h3, h4⟩
      · exact Or.inl ⟨u, by simp only [stepA, eraseA, he]; rfl⟩
      · right
        exact same t R (by simp only [stepA, step, eraseA, erase, he]; rfl)
      · right
        obtain ⟨h', t', e1, R', S, _⟩ := step_sim (dflt := dflt) R F hm (.erase k) hp
        simp only [step, erase] at e1
        rw [h4] at e1
        obtain ⟨⟨h5, t5, b5⟩, e2, e3⟩ := Res.bind_eq_ok.mp e1
        obtain ⟨⟨t6, r6⟩, e4, e5⟩ := Res.bind_eq_ok.mp e2
        obtain ⟨t7, e6, e7⟩ := Res.bind_eq_ok.mp e4
        simp at e7
        obtain ⟨rfl, rfl⟩ := e7
        simp only at e5
        obtain ⟨h8, e8, e9⟩ := Res.bind_eq_ok.mp e5
        simp at e9
        obtain ⟨rfl, rfl, rfl⟩ := e9
        simp at e3
        obtain ⟨rfl, rfl, e10⟩ := e3
        have h5 := mayRehash_entries e6 h2
        have h6 := R'.nil_of h5
        have h7 : ne = 0 := by
          have h8 := R'.ne_eq
          rw [h6] at h8
          rw [← h3]
          -- the counter is kept by the rehash
          have : t7.ne = u.ne := by
            have hd : ∀ n, doRehash u n = .ok t7 → t7.ne = u.ne := by
              intro n hd
              unfold doRehash at hd
              split at hd
              · cases hd
              · obtain ⟨bs, _, hd⟩ := Res.bind_eq_ok.mp hd
                simp at hd
                rw [← hd]
            unfold mayRehash at e6
            split at e6
            · exact hd _ e6
            · split at e6
              · exact hd _ e6
              · simp at e6; rw [e6]
          rw [← this]
          simpa using h8
        subst h7
        refine ⟨h8, ⟨false, [], n, 0, 0⟩, ?_, Or.inr ⟨⟨rfl, rfl, rfl, rfl⟩, h6⟩, S.fresh⟩
        simp only [stepA, eraseA, h1, Res.ok_bind, e8, e10]
    · right
      exact ⟨h, t, by simp [stepA, eraseA, eraseEA, findKey, L.init, tstep, FMap.erase, FMap.lookup], Or.inr ⟨L, by simp [tstep, FMap.erase]⟩, F⟩
  | rehash =>
    rcases mayRehashA_cases g.re t with ⟨u, he⟩ | he | ⟨n, h1, h2⟩
    · exact Or.inl ⟨u, by simp only [stepA, he]; rfl⟩
    · rcases A with R | ⟨L, rfl⟩
      · right; exact same t R (by simp only [stepA, step, rehash, he])
      · -- without array: nothing is done, or the array is read
        by_cases h1 : (∃ u, mayRehash t = .ub u)
        · obtain ⟨u, h1⟩ := h1
          exact Or.inl ⟨u, by simp only [stepA, he, h1]; rfl⟩
        · right
          have hok : mayRehash t = .ok t ∨ t.nb = 0 := by
            have hd : ∀ n, t.nb ≠ 0 → doRehash t n = .ub .outOfBounds := by
              intro n h0
              unfold doRehash
              rw [if_pos (by rw [L.buckets]; simp; omega)]
            by_cases h0 : t.nb = 0
            · exact Or.inr h0
            · left
              unfold mayRehash at h1 ⊢
              split
              · rename_i hc
                rw [if_pos hc] at h1
                exact absurd ⟨_, hd _ h0⟩ h1
              · rename_i hc
                rw [if_neg hc] at h1
                split
                · rename_i hc2
                  rw [if_pos hc2] at h1
                  exact absurd ⟨_, hd _ h0⟩ h1
                · rfl
          rcases hok with hok | h0
          · exact ⟨h, t, by simp [stepA, he, hok, tstep], Or.inr ⟨L, rfl⟩, F⟩
          · have : t = Table.null := by
              rcases t with ⟨i, b, n, e, tt⟩
              obtain ⟨a1, a2, a3, a4⟩ := L
              simp only at a1 a2 a3 a4 h0
              subst a1 a2 a3 a4 h0
              rfl
            subst this
            exact same Table.null null_rel (by simp only [stepA, step, rehash, he])
    · right
      rcases A with R | ⟨L, rfl⟩
      · have h3 := R.nil_of h2
        subst h3
        have h4 := R.ne_eq
        exact ⟨h, ⟨false, [], n, t.ne, 0⟩, by simp only [stepA, h1, Res.ok_bind, tstep], Or.inr ⟨⟨rfl, rfl, by simpa using h4, rfl⟩, rfl⟩, F⟩
      · exact ⟨h, ⟨false, [], n, t.ne, 0⟩, by simp only [stepA, h1, Res.ok_bind, tstep], Or.inr ⟨⟨rfl, rfl, L.ne, rfl⟩, rfl⟩, F⟩
  | rehashN n =>
    rcases doRehashA_cases g.re t (w32 n) with ⟨u, he⟩ | he | ⟨h1, h2⟩
    · exact Or.inl ⟨u, by simp only [stepA, he]; rfl⟩
    · rcases A with R | ⟨L, rfl⟩
      · right; exact same t R (by simp only [stepA, step, rehashN, he])
      · by_cases h0 : t.nb = 0
        · have : t = Table.null := by
            rcases t with ⟨i, b, n, e, tt⟩
            obtain ⟨a1, a2, a3, a4⟩ := L
            simp only at a1 a2 a3 a4 h0
            subst a1 a2 a3 a4 h0
            rfl
          subst this
          right
          exact same Table.null null_rel (by simp only [stepA, step, rehashN, he])
        · left
          refine ⟨.outOfBounds, ?_⟩
          simp only [stepA, he]
          unfold doRehash
          rw [if_pos (by rw [L.buckets]; simp; omega)]
          rfl
    · right
      rcases A with R | ⟨L, rfl⟩
      · have h3 := R.nil_of h2
        subst h3
        have h4 := R.ne_eq
        exact ⟨h, ⟨false, [], w32 n, t.ne, 0⟩, by simp only [stepA, h1, Res.ok_bind, tstep], Or.inr ⟨⟨rfl, rfl, by simpa using h4, rfl⟩, rfl⟩, F⟩
      · exact ⟨h, ⟨false, [], w32 n, t.ne, 0⟩, by simp only [stepA, h1, Res.ok_bind, tstep], Or.inr ⟨⟨rfl, rfl, L.ne, rfl⟩, rfl⟩, F⟩

theorem runOpsA_sim : ∀ (ops : List (Grant × TOp K V)) (h : Heap K V) (t : Table Nat) (m : FMap K V), ARel hash h t m → h.Fresh →
    FMap.Functional m → m.length ≤ 1073643498 → TPres dflt m (ops.map Prod.snd) →
    (∃ u, runOpsA hash dflt h t ops = .ub u) ∨
    ∃ h' t', runOpsA hash dflt h t ops = .ok (h', t', (truns dflt m (ops.map Prod.snd)).2) ∧
      ARel hash h' t' (truns dflt m (ops.map Prod.snd)).1 ∧ h'.Fresh := by
  intro ops
  induction ops with
  | nil => intro h t m A F _ _ _; exact Or.inr ⟨h, t, rfl, A, F⟩
  | cons o ops ih =>
    intro h t m A F hf hm hp
    obtain ⟨g, op⟩ := o
    rcases stepA_sim (dflt := dflt) g A F hm op hp.1 with ⟨u, e1⟩ | ⟨h1, t1, e1, A1, F1⟩
    · exact Or.inl ⟨u, by simp only [runOpsA, e1]; rfl⟩
    · have hf1 : FMap.Functional (tstep dflt m op).1 := by
        rcases A1 with R1 | ⟨_, h2⟩
        · exact R1.functional
        · rw [h2]; exact List.nodup_nil
      rcases ih h1 t1 _ A1 F1 hf1 (tstep_length hf hm op hp.1) hp.2 with ⟨u, e2⟩ | ⟨h2, t2, e2, A2, F2⟩
      · exact Or.inl ⟨u, by simp only [runOpsA, e1, Res.ok_bind, e2]; rfl⟩
      · exact Or.inr ⟨h2, t2, by simp only [runOpsA, e1, Res.ok_bind, e2, List.map_cons, truns], A2, F2⟩

/-- with all memory granted -/
theorem stepA_all (op : TOp K V) : stepA .all hash dflt h t op = step hash dflt h t op := by
  have hi : ∀ k, insertA .all hash dflt h t k = insert hash dflt h t k := by
    intro k; unfold insertA insert; simp only [insertEA_all]; rfl
  cases op with
  | insert k => simp only [stepA, step, hi]
  | assign k v => simp only [stepA, step, assignA, assign, hi]
  | erase k => simp only [stepA, step, eraseA, erase, eraseEA_all]; rfl
  | find k => rfl
  | clear => rfl
  | rehash => simp only [stepA, step, rehash, Grant.all, mayRehashA_true]
  | rehashN n => simp only [stepA, step, rehashN, Grant.all, doRehashA_true]

theorem runOpsA_all : ∀ (ops : List (TOp K V)) (h : Heap K V) (t : Table Nat),
    runOpsA hash dflt h t (ops.map fun op => (Grant.all, op)) = runOps hash dflt h t ops := by
  intro ops
  induction ops with
  | nil => intro h t; rfl
  | cons op ops ih => intro h t; simp only [List.map_cons, runOpsA, runOps, stepA_all, ih]

/-- an operation other than `rehash(n)` on a table that has lost an array of fewer than 2^29 buckets -/
theorem step_lost (L : Lost t) (hnb : t.nb < 536870912) (F : h.Fresh) (op : TOp K V) (hop : ∀ n, op ≠ .rehashN n) :
    ∃ h' t', step hash dflt h t op = .ok (h', t', (tstep dflt [] op).2) ∧
      (TRel hash h' t' (tstep dflt [] op).1 ∨ (t' = t ∧ (tstep dflt [] op).1 = [])) ∧ h'.Fresh := by
  have ins : ((∃ k, op = .insert k) ∨ ∃ k v, op = .assign k v) → ∃ h' t', step hash dflt h t op = .ok (h', t', (tstep dflt [] op).2) ∧
      (TRel hash h' t' (tstep dflt [] op).1 ∨ (t' = t ∧ (tstep dflt [] op).1 = [])) ∧ h'.Fresh := by
    intro ho
    obtain ⟨h', t', e1, R', S, _⟩ := step_sim (dflt := dflt) (null_rel (hash := hash) (h := h)) F (by simp) op (by
      rcases ho with ⟨k, rfl⟩ | ⟨k, v, rfl⟩ <;> simp [TPre])
    exact ⟨h', t', by rw [step_insert_lost L op ho, e1], Or.inl R', S.fresh⟩
  cases op with
  | insert k => exact ins (Or.inl ⟨k, rfl⟩)
  | assign k v => exact ins (Or.inr ⟨k, v, rfl⟩)
  | find k => exact ⟨h, t, by simp [step, lookup, find, findE, findKey, L.init, tstep, FMap.lookup], Or.inr ⟨rfl, rfl⟩, F⟩
  | clear => exact ⟨h, t, by simp [step, clear, L.ne, tstep], Or.inr ⟨rfl, rfl⟩, F⟩
  | erase k =>
    exact ⟨h, t, by simp [step, erase, eraseE, findKey, L.init, tstep, FMap.erase, FMap.lookup], Or.inr ⟨rfl, by simp [tstep, FMap.erase]⟩, F⟩
  | rehash =>
    refine ⟨h, t, ?_, Or.inr ⟨rfl, rfl⟩, F⟩
    have : mayRehash t = .ok t := by
      unfold mayRehash
      rw [L.ne, L.nt, if_neg (by simp [w32]), if_neg]
      unfold sub32 w32
      omega
    simp [step, rehash, this, tstep]
  | rehashN n => exact absurd rfl (hop n)

theorem runOps_lost : ∀ (ops : List (TOp K V)) (h : Heap K V) (t : Table Nat), Lost t → t.nb < 536870912 → h.Fresh →
    (∀ op ∈ ops, ∀ n, op ≠ .rehashN n) → TPres dflt [] ops →
    ∃ h' t', runOps hash dflt h t ops = .ok (h', t', (truns dflt [] ops).2) ∧
      (TRel hash h' t' (truns dflt [] ops).1 ∨ (t' = t ∧ (truns dflt [] ops).1 = [])) := by
  intro ops
  induction ops with
  | nil => intro h t L hnb F _ _; exact ⟨h, t, rfl, Or.inr ⟨rfl, rfl⟩⟩
  | cons op ops ih =>
    intro h t L hnb F hops hp
    obtain ⟨h1, t1, e1, R1, F1⟩ := step_lost (hash := hash) (dflt := dflt) L hnb F op (hops op (by simp))
    rcases R1 with R1 | ⟨rfl, hm⟩
    · obtain ⟨h2, t2, e2, R2, _⟩ := runOps_sim (dflt := dflt) ops _ _ _ R1 F1 (tstep_length (m := []) List.nodup_nil (by simp) op hp.1) hp.2
      exact ⟨h2, t2, by simp only [runOps, e1, Res.ok_bind, e2, truns], Or.inl R2⟩
    · have hp2 := hp.2
      rw [hm] at hp2
      obtain ⟨h2, t2, e2, R2⟩ := ih h1 t1 L hnb F1 (fun o ho => hops o (by simp [ho])) hp2
      refine ⟨h2, t2, ?_, ?_⟩
      · simp only [runOps, e1, Res.ok_bind, e2, truns, hm]
      · simpa only [truns, hm] using R2

theorem newA_lost (size : Nat) : Lost (Table.newA false size : Table Nat) := by
  unfold Table.newA initTableA
  split <;> exact ⟨rfl, rfl, rfl, rfl⟩

theorem newA_true (size : Nat) : (Table.newA true size : Table Nat) = Table.new size := by
  unfold Table.newA Table.new initTableA
  simp

theorem newA_nb {size : Nat} (hs : size ≤ 536739810) : (Table.newA false size : Table Nat).nb < 536870912 := by
  unfold Table.newA initTableA
  rw [show w32 size = size from w32_of_lt (by omega)]
  split
  · simp only [Bool.false_eq_true, if_false]
    have := (computeBucketSize_bounds size (by omega)).2
    omega
  · simp [Table.null]

/-- an insertion that makes an entry and is refused it -/
theorem insertEA_refused {E : Type} {hash : K → UInt32} {keyOf : E → Option K} {t t' : Table E} {k : K} {mk : E} {i : Nat} {g : Grant}
    (hi : insertE hash keyOf t k mk = .ok (t', i, false)) (hg : g.entry = false) : insertEA g hash keyOf t k mk = .ub .nullDeref := by
  unfold insertEA
  unfold insertE at hi
  rcases lookupBucketForA_cases g.arr hash keyOf t k with h | h
  · rw [h]; rfl
  · rw [h]
    obtain ⟨⟨t1, i1⟩, h1, h2⟩ := Res.bind_eq_ok.mp hi
    rw [h1]
    simp only [Res.ok_bind] at h2 ⊢
    cases hb : t1.buckets[i1]? with
    | none => rw [hb] at h2; cases h2
    | some b =>
      rw [hb] at h2
      simp only at h2 ⊢
      cases hs : b.slot with
      | full e => rw [hs] at h2; simp at h2
      | empty => simp [hg]
      | tomb => simp [hg]

theorem step_insert_refused (R : TRel hash h t m) (F : h.Fresh) (hm : m.length < 1073643498) {k : K} (hk : m.lookup k = none) {g : Grant}
    (hg : g.entry = false) : insertA g hash dflt h t k = .ub .nullDeref := by
  rcases insert_sim (dflt := dflt) R F hm k with ⟨p, v, _, _, _, hl⟩ | ⟨_, t', hi, _⟩
  · rw [hk] at hl; cases hl
  · unfold insert at hi
    simp only at hi
    obtain ⟨⟨t1, i, ex⟩, h1, h2⟩ := Res.bind_eq_ok.mp hi
    have hex : ex = false := by
      cases ex with
      | false => rfl
      | true =>
        simp only [if_true] at h2
        split at h2
        · simp at h2
        · cases h2
    subst hex
    unfold insertA
    simp only
    rw [insertEA_refused h1 hg]
    rfl

theorem doRehashA_refused (R : TRel hash h t m) (hm : m ≠ []) {n : Nat} (hn : n ≠ 0) : doRehashA false t n = .ub .nullDeref := by
  have he : t.entries ≠ [] := fun h0 => hm (R.nil_of h0)
  unfold doRehashA
  have hl : ¬ t.buckets.length < t.nb := by
    rcases R.good with rfl | W
    · simp [Table.null]
    · have := W.len; omega
  rw [if_neg hl, if_neg (by simp), if_neg (by simpa using he), if_neg hn]

end HashTable
end Eni
