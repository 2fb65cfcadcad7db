import Verif.Model.JsonParser
import Verif.Spec.Json
import Verif.Proofs.HashWeak
import Mathlib.Data.List.Induction
/-!
# The callbacks build the value that the events describe
-/
namespace Eni
namespace Json
open Spec

theorem cbRun_append (cb : CbState) (a b : List Ev) : cbRun cb (a ++ b) = (cbRun cb a >>= fun cb => cbRun cb b) := by
  induction a generalizing cb with
  | nil => rfl
  | cons e a ih =>
    simp only [List.cons_append, cbRun]
    cases h : cbStep cb e <;> simp [ih]

mutual
/-- the events that describe a value -/
inductive EvOf : List Ev → JV → Prop
  | boolean {b} : EvOf [.boolean b] (.bool b)
  | number {t z} : IntText t z → EvOf [.number t] (.int (wrap256 z))
  | str {s} : EvOf [.string s false] (.str s)
  | arr {es js} : EvsOf es js → EvOf (.beginArray :: (es ++ [.endArray])) (.arr js)
  | obj {es ms} : MsOf es ms → EvOf (.beginObject :: (es ++ [.endObject])) (.obj ms)
inductive EvsOf : List Ev → List JV → Prop
  | nil : EvsOf [] []
  | cons {es js e j} : EvOf e j → EvsOf es js → EvsOf (e ++ es) (j :: js)
inductive MsOf : List Ev → List (Bytes × JV) → Prop
  | nil : MsOf [] []
  | cons {es ms k e j} : EvOf e j → MsOf es ms → MsOf (.string k true :: (e ++ es)) ((k, j) :: ms)
end

/-- values whose tables are usable -/
inductive Usable : Value → Prop
  | int {z} : Usable (.int z)
  | bool {b} : Usable (.bool b)
  | str {s} : Usable (.str s)
  | arr {vs} : (∀ v ∈ vs, Usable v) → Usable (.arr vs)
  | obj {m} : Table.Counted m → (∀ e ∈ m.entries, Usable e.val) → Usable (.obj m)

theorem Usable.noUndef {v : Value} (h : Usable v) : NoUndef v := by
  induction h with
  | int => exact .int
  | bool => exact .bool
  | str => exact .str
  | arr _ ih => exact .arr ih
  | obj _ _ ih => exact .obj ih

/-- what running the events of a value amounts to -/
def Delivers (es : List Ev) (j : JV) : Prop :=
  ∃ x, Usable x ∧ (ShortKeys j → Shows x j) ∧ ∀ cb, cbRun cb es = setParent cb x

/-! ### text of integers -/

theorem foldl_mod (ds : Bytes) (a : Nat) :
    ds.foldl Value.s256Digit (a % 2 ^ 256) = (ds.foldl (fun a c => a * 10 + (c.toNat - 48)) a) % 2 ^ 256 := by
  induction ds generalizing a with
  | nil => rfl
  | cons c ds ih =>
    simp only [List.foldl_cons]
    rw [← ih]
    congr 1
    simp [Value.s256Digit, Nat.add_mod, Nat.mul_mod]

theorem s256_nat {t : Bytes} : t.foldl Value.s256Digit 0 = decVal t % 2 ^ 256 := foldl_mod t 0

theorem s256OfText_eq {t : Bytes} {z : Int} (h : IntText t z) : Value.s256OfText t = wrap256 z := by
  have hm : ∀ n : Nat, wrap256 (n : Int) = ((n % 2 ^ 256 : Nat) : Int) := by
    intro n
    unfold wrap256
    rcases Nat.eq_zero_or_pos n with rfl | hn
    · simp
    · rw [Int.sign_eq_one_of_pos (by omega)]; simp
  have hneg : ∀ n : Nat, wrap256 (-(n : Int)) = -((n % 2 ^ 256 : Nat) : Int) := by
    intro n
    unfold wrap256
    rcases Nat.eq_zero_or_pos n with rfl | hn
    · simp
    · rw [Int.sign_eq_neg_one_of_neg (by omega)]; simp
  cases h with
  | nonneg h =>
    obtain ⟨h1, h2, h3, h4⟩ := h
    rw [h4, hm, ← s256_nat]
    unfold Value.s256OfText
    split
    · rename_i ds
      exact absurd (h2 45 List.mem_cons_self) (by simp [Digit])
    · rfl
  | neg h =>
    obtain ⟨h1, h2, h3, h4⟩ := h
    rw [h4, hneg, ← s256_nat]
    rfl

/-! ### members -/

/-- the finite map an object holds after the members `ms`, where `xs` are the values delivered -/
def setAll (xs : List (Bytes × Value)) : FMap Bytes Value := xs.foldl (fun m kv => m.set kv.1 kv.2) []

theorem setAll_snoc (xs : List (Bytes × Value)) (k : Bytes) (v : Value) : setAll (xs ++ [(k, v)]) = (setAll xs).set k v := by
  simp [setAll]

theorem setAll_lookup (xs : List (Bytes × Value)) (k : Bytes) : (setAll xs).lookup k = FMap.lookup xs.reverse k := by
  induction xs using List.reverseRecOn with
  | nil => rfl
  | append_singleton xs kv ih =>
    obtain ⟨k', v⟩ := kv
    rw [setAll_snoc, FMap.lookup_set, List.reverse_append]
    simp only [List.reverse_cons, List.reverse_nil, List.nil_append, List.singleton_append]
    unfold FMap.lookup at ih ⊢
    by_cases h : k = k'
    · subst h; simp
    · rw [if_neg h, List.find?_cons_of_neg (by simpa using fun e => h e.symm)]
      exact ih

theorem setAll_functional (xs : List (Bytes × Value)) : (setAll xs).Functional := by
  induction xs using List.reverseRecOn with
  | nil => exact List.nodup_nil
  | append_singleton xs kv ih =>
    obtain ⟨k', v⟩ := kv
    rw [setAll_snoc]
    exact FMap.Functional.set ih k' v

theorem setAll_mem_keys (xs : List (Bytes × Value)) (k : Bytes) : k ∈ (setAll xs).map Prod.fst ↔ k ∈ xs.map Prod.fst := by
  have h : ∀ m : FMap Bytes Value, k ∈ m.map Prod.fst ↔ m.lookup k ≠ none := by
    intro m
    constructor
    · intro hk hn
      obtain ⟨⟨k', v⟩, hm, rfl⟩ := List.mem_map.mp hk
      exact (FMap.lookup_none_iff.mp hn) v hm
    · intro hn
      by_contra hk
      apply hn
      rw [FMap.lookup_none_iff]
      intro v hv
      exact hk (List.mem_map.mpr ⟨(k, v), hv, rfl⟩)
  rw [h, setAll_lookup, ← h]
  simp

theorem setAll_length (xs : List (Bytes × Value)) : (setAll xs).length = (xs.map Prod.fst).dedup.length := by
  have hp : ((setAll xs).map Prod.fst).Perm (xs.map Prod.fst).dedup := by
    rw [List.perm_ext_iff_of_nodup (setAll_functional xs) (List.nodup_dedup _)]
    intro k
    rw [List.mem_dedup, setAll_mem_keys]
  have := hp.length_eq
  simpa using this

theorem setAll_length_le (xs : List (Bytes × Value)) : (setAll xs).length ≤ xs.length := by
  rw [setAll_length]
  have := (List.dedup_sublist (xs.map Prod.fst)).length_le
  simpa using this

/-! ### delivery -/

/-- what running the events of elements amounts to -/
def DeliversElems (es : List Ev) (js : List JV) : Prop :=
  ∃ xs : List Value, xs.length = js.length ∧ (∀ v ∈ xs, Usable v) ∧
    ((∀ j ∈ js, ShortKeys j) → ∀ (i : Nat) v j, xs[i]? = some v → js[i]? = some j → Shows v j) ∧
    ∀ vs key rest root, cbRun ⟨(.arr vs, key) :: rest, root⟩ es = .ok ⟨(.arr (vs ++ xs), key) :: rest, root⟩

/-- what running the events of members amounts to -/
def DeliversMembers (es : List Ev) (ms : List (Bytes × JV)) : Prop :=
  ∃ xs : List Value, xs.length = ms.length ∧ (∀ v ∈ xs, Usable v) ∧
    ((∀ k j, (k, j) ∈ ms → ShortKeys j) → ∀ (i : Nat) v k j, xs[i]? = some v → ms[i]? = some (k, j) → Shows v j) ∧
    ∀ (m : SMap Value) key, Table.Counted m → m.ne + ms.length ≤ 1073643498 →
      ∃ m' key', (∀ rest root, cbRun ⟨(.obj m, key) :: rest, root⟩ es = .ok ⟨(.obj m', key') :: rest, root⟩) ∧ Table.Counted m' ∧
        (∀ e ∈ m'.entries, e.val ∈ xs ∨ e ∈ m.entries) ∧
        ∀ fm : FMap Bytes Value, SRel m fm → (∀ k j, (k, j) ∈ ms → k.length < 65536) →
          SRel m' (((ms.map Prod.fst).zip xs).foldl (fun m kv => m.set kv.1 kv.2) fm)

theorem cbRun_single (cb : CbState) (e : Ev) : cbRun cb [e] = cbStep cb e := by
  simp only [cbRun]
  cases cbStep cb e <;> rfl

theorem new8_counted : Table.Counted (SMap.new 8 : SMap Value) :=
  (Table.initTable_wf (K := Bytes) Hasher.sdbm SEntry.keyO (by decide)).1.counted

theorem new8_entries : (SMap.new 8 : SMap Value).entries = [] :=
  (Table.initTable_wf (K := Bytes) Hasher.sdbm SEntry.keyO (by decide)).2

theorem set_length_le (m : FMap Bytes Value) (k : Bytes) (v : Value) : (m.set k v).length ≤ m.length + 1 := by
  have := FMap.length_erase_le' m k
  simp only [FMap.set, List.length_cons]
  omega

theorem zip_lookup {ms : List (Bytes × JV)} {xs : List Value} (h : xs.length = ms.length) (k : Bytes) :
    (lastMember ms k = none → FMap.lookup ((ms.map Prod.fst).zip xs).reverse k = none) ∧
    (∀ j, lastMember ms k = some j → ∃ (i : Nat) (v : Value), xs[i]? = some v ∧ ms[i]? = some (k, j) ∧
      FMap.lookup ((ms.map Prod.fst).zip xs).reverse k = some v) := by
  induction ms using List.reverseRecOn generalizing xs with
  | nil => simp [lastMember, FMap.lookup]
  | append_singleton ms kj ih =>
    obtain ⟨k', j'⟩ := kj
    rcases List.eq_nil_or_concat xs with rfl | ⟨ys, v', rfl⟩
    · simp at h
    · rw [List.concat_eq_append] at h ⊢
      simp only [List.length_append, List.length_cons, List.length_nil, Nat.add_right_cancel_iff] at h
      have hz : ((ms ++ [(k', j')]).map Prod.fst).zip (ys ++ [v']) = (ms.map Prod.fst).zip ys ++ [(k', v')] := by
        rw [List.map_append, List.zip_append (by simp [h])]
        rfl
      rw [hz]
      obtain ⟨ih1, ih2⟩ := ih h
      unfold lastMember FMap.lookup at *
      simp only [List.reverse_append, List.reverse_cons, List.reverse_nil, List.nil_append, List.singleton_append]
      by_cases hk : k' = k
      · subst hk
        simp only [List.find?_cons, decide_true, Option.map_some]
        refine ⟨by simp, fun j hj => ⟨ys.length, v', by simp, ?_, rfl⟩⟩
        simp only [Option.some.injEq] at hj
        subst hj
        rw [h]; simp
      · rw [List.find?_cons_of_neg (by simpa using hk), List.find?_cons_of_neg (by simpa using hk)]
        refine ⟨ih1, fun j hj => ?_⟩
        obtain ⟨i, v, h1, h2, h3⟩ := ih2 j hj
        have hi1 : i < ys.length := (List.getElem?_eq_some_iff.mp h1).1
        refine ⟨i, v, ?_, ?_, h3⟩
        · rw [List.getElem?_append_left hi1]; exact h1
        · rw [List.getElem?_append_left (by omega)]; exact h2

theorem evOf_delivers {es : List Ev} {j : JV} (h : EvOf es j) : es.length ≤ 1073643498 → Delivers es j := by
  refine EvOf.rec (motive_1 := fun es j _ => es.length ≤ 1073643498 → Delivers es j)
    (motive_2 := fun es js _ => es.length ≤ 1073643498 → DeliversElems es js)
    (motive_3 := fun es ms _ => es.length ≤ 1073643498 → ms.length ≤ es.length ∧ DeliversMembers es ms)
    ?_ ?_ ?_ ?_ ?_ ?_ ?_ ?_ ?_ h
  · intro b _
    exact ⟨.bool b, .bool, fun _ => .bool, fun cb => by rw [cbRun_single]; rfl⟩
  · intro t z ht _
    refine ⟨.int (wrap256 z), .int, fun _ => .int, fun cb => ?_⟩
    rw [cbRun_single, ← s256OfText_eq ht]
    rfl
  · intro s _
    exact ⟨.str s, .str, fun _ => .str, fun cb => by rw [cbRun_single]; rfl⟩
  · intro es js _ ih hlen
    simp only [List.length_cons, List.length_append, List.length_nil] at hlen
    obtain ⟨xs, h1, h2, h3, h4⟩ := ih (by omega)
    refine ⟨.arr xs, .arr h2, ?_, ?_⟩
    · intro hs
      cases hs with
      | arr hs => exact .arr h1 (h3 hs)
    · intro cb
      simp only [cbRun, cbStep, Res.ok_bind]
      rw [cbRun_append, h4, Res.ok_bind, cbRun_single]
      simp only [cbStep, copyTop, List.nil_append]
  · intro es ms _ ih hlen
    simp only [List.length_cons, List.length_append, List.length_nil] at hlen
    obtain ⟨hms, xs, h1, h2, h3, h4⟩ := ih (by omega)
    obtain ⟨m', key', h5, h6, h7, h8⟩ := h4 (SMap.new 8) [] new8_counted (by
      rw [new8_counted.ne_eq, new8_entries]; simp only [List.length_nil]; omega)
    refine ⟨.obj (SMap.copy m'), ?_, ?_, ?_⟩
    · refine .obj (SMap.copy_counted h6) ?_
      intro e he
      obtain ⟨e0, he0, hv⟩ := SMap.copy_vals he
      rw [hv]
      rcases h7 e0 he0 with h | h
      · exact h2 _ h
      · rw [new8_entries] at h; exact absurd h (by simp)
    · intro hs
      cases hs with
      | obj hk hs =>
        have R := SMap.copy_sim (h8 [] (SRel.new (by decide)) hk) h6.init
        have hfind := SMap.find_sim R
        have hset : (((ms.map Prod.fst).zip xs).foldl (fun m kv => FMap.set m kv.1 kv.2) []) = setAll ((ms.map Prod.fst).zip xs) := rfl
        rw [hset] at R hfind
        simp only [setAll_lookup] at hfind
        have hz := fun k => zip_lookup h1 k
        have hkeys : ((ms.map Prod.fst).zip xs).map Prod.fst = ms.map Prod.fst := List.map_fst_zip (by simp [h1])
        refine .obj ?_ ?_ ?_ ?_ ?_ ?_
        · show (SMap.copy m').ne = _
          rw [R.ne_eq, setAll_length, hkeys]
        · refine (R.abs.map Prod.fst).trans ?_
          refine (List.perm_ext_iff_of_nodup (setAll_functional _) (List.nodup_dedup _)).mpr ?_
          intro k
          rw [setAll_mem_keys, hkeys, List.mem_dedup]
        · intro k v hkv
          rw [hfind k, ← setAll_lookup]
          exact congrArg _ (FMap.lookup_of_mem (setAll_functional _) (R.abs.mem_iff.mp hkv))
        · intro k hl
          rw [hfind k, (hz k).1 hl]
        · intro k j hl
          obtain ⟨i, v, _, _, hv⟩ := (hz k).2 j hl
          exact ⟨v, by rw [hfind k, hv]⟩
        · intro k j v hl hv
          obtain ⟨i, v', hx, hm, hv'⟩ := (hz k).2 j hl
          rw [hfind k, hv'] at hv
          simp only [Res.ok.injEq, Option.some.injEq] at hv
          subst hv
          exact h3 hs i v' k j hx hm
    · intro cb
      simp only [cbRun, cbStep, Res.ok_bind]
      rw [cbRun_append, h5, Res.ok_bind, cbRun_single]
      simp only [cbStep, copyTop]
  · intro _
    exact ⟨[], rfl, by simp, by simp, by intro vs key rest root; simp [cbRun]⟩
  · intro es js e j _ _ ih1 ih2 hlen
    simp only [List.length_append] at hlen
    obtain ⟨x, hu, hsh, hrun⟩ := ih1 (by omega)
    obtain ⟨xs, h1, h2, h3, h4⟩ := ih2 (by omega)
    refine ⟨x :: xs, by simp [h1], ?_, ?_, ?_⟩
    · intro v hv
      rcases List.mem_cons.mp hv with rfl | hv
      · exact hu
      · exact h2 v hv
    · intro hs i v j' hi hj
      cases i with
      | zero =>
        simp only [List.getElem?_cons_zero, Option.some.injEq] at hi hj
        subst hi hj
        exact hsh (hs _ List.mem_cons_self)
      | succ i =>
        simp only [List.getElem?_cons_succ] at hi hj
        exact h3 (fun j hj => hs j (List.mem_cons_of_mem _ hj)) i v j' hi hj
    · intro vs key rest root
      rw [cbRun_append, hrun]
      simp only [setParent, Res.ok_bind]
      rw [h4]
      simp
  · intro _
    refine ⟨by simp, [], rfl, by simp, by simp, ?_⟩
    intro m key hc _
    exact ⟨m, key, fun _ _ => rfl, hc, fun e he => Or.inr he, fun fm R _ => R⟩
  · intro es ms k e j _ _ ih1 ih2 hlen
    simp only [List.length_append, List.length_cons] at hlen
    obtain ⟨x, hu, hsh, hrun⟩ := ih1 (by omega)
    obtain ⟨hl, xs, h1, h2, h3, h4⟩ := ih2 (by omega)
    refine ⟨by simp only [List.length_cons, List.length_append]; omega, x :: xs, by simp [h1], ?_, ?_, ?_⟩
    · intro v hv
      rcases List.mem_cons.mp hv with rfl | hv
      · exact hu
      · exact h2 v hv
    · intro hs i v k' j' hi hj
      cases i with
      | zero =>
        simp only [List.getElem?_cons_zero, Option.some.injEq, Prod.mk.injEq] at hi hj
        obtain ⟨rfl, rfl⟩ := hj
        subst hi
        exact hsh (hs _ _ List.mem_cons_self)
      | succ i =>
        simp only [List.getElem?_cons_succ] at hi hj
        exact h3 (fun k j hj => hs k j (List.mem_cons_of_mem _ hj)) i v k' j' hi hj
    · intro m key hc hm
      simp only [List.length_cons] at hm
      obtain ⟨m1, b, ha, hc1, hne1, hent1⟩ := SMap.assign_counted hc (by omega) k x
      obtain ⟨m', key', h5, h6, h7, h8⟩ := h4 m1 k hc1 (by omega)
      refine ⟨m', key', ?_, h6, ?_, ?_⟩
      · intro rest root
        simp only [cbRun, cbStep, Res.ok_bind]
        rw [cbRun_append, hrun]
        simp only [setParent, ha, Res.ok_bind]
        exact h5 rest root
      · intro e he
        rcases h7 e he with h | h
        · exact Or.inl (List.mem_cons_of_mem _ h)
        · rcases hent1 e h with h | h
          · exact Or.inl (h ▸ List.mem_cons_self)
          · exact Or.inr h
      · intro fm R hk
        obtain ⟨t', hta, _, R'⟩ := SMap.assign_sim R (by rw [← R.ne_eq]; omega) (hk k j List.mem_cons_self) x
        rw [ha] at hta
        simp only [Res.ok.injEq, Prod.mk.injEq] at hta
        obtain ⟨rfl, _⟩ := hta
        exact h8 _ R' (fun k j h => hk k j (List.mem_cons_of_mem _ h))

/-! ### events up to a syntax error -/

/-- the events seen when an error stops the parser inside a value -/
inductive PartOf : List Ev → Prop
  | nil : PartOf []
  | arr {es js p} : EvsOf es js → PartOf p → PartOf (.beginArray :: (es ++ p))
  | obj {es ms} : MsOf es ms → PartOf (.beginObject :: es)
  | objKey {es ms k p} : MsOf es ms → PartOf p → PartOf (.beginObject :: (es ++ .string k true :: p))

theorem evOf_nonempty {es : List Ev} {j : JV} (h : EvOf es j) : 0 < es.length := by
  cases h <;> simp

theorem evsOf_delivers {es : List Ev} {js : List JV} (h : EvsOf es js) : es.length ≤ 1073643498 → DeliversElems es js := by
  induction js generalizing es with
  | nil =>
    intro _
    cases h
    exact ⟨[], rfl, by simp, by simp, by intro vs key rest root; simp [cbRun]⟩
  | cons j js ih =>
    cases h with
    | cons he hs =>
      rename_i es' e
      intro hlen
      simp only [List.length_append] at hlen
      obtain ⟨x, hu, hsh, hrun⟩ := evOf_delivers he (by omega)
      obtain ⟨xs, h1, h2, h3, h4⟩ := ih hs (by omega)
      refine ⟨x :: xs, by simp [h1], ?_, ?_, ?_⟩
      · intro v hv
        rcases List.mem_cons.mp hv with rfl | hv
        · exact hu
        · exact h2 v hv
      · intro hs i v j' hi hj
        cases i with
        | zero =>
          simp only [List.getElem?_cons_zero, Option.some.injEq] at hi hj
          subst hi hj
          exact hsh (hs _ List.mem_cons_self)
        | succ i =>
          simp only [List.getElem?_cons_succ] at hi hj
          exact h3 (fun j hj => hs j (List.mem_cons_of_mem _ hj)) i v j' hi hj
      · intro vs key rest root
        rw [cbRun_append, hrun]
        simp only [setParent, Res.ok_bind]
        rw [h4]
        simp

theorem msOf_run {es : List Ev} {ms : List (Bytes × JV)} (h : MsOf es ms) (hlen : es.length ≤ 1073643498) :
    ms.length ≤ es.length ∧ ∀ (m : SMap Value) key, Table.Counted m → m.ne + ms.length ≤ 1073643498 →
      ∃ m' key', ∀ rest root, cbRun ⟨(.obj m, key) :: rest, root⟩ es = .ok ⟨(.obj m', key') :: rest, root⟩ := by
  induction ms generalizing es with
  | nil =>
    cases h
    exact ⟨by simp, fun m key _ _ => ⟨m, key, fun _ _ => rfl⟩⟩
  | cons km ms ih =>
    cases h with
    | cons he hs =>
      rename_i es' k e j
      simp only [List.length_append, List.length_cons] at hlen
      obtain ⟨x, hu, hsh, hrun⟩ := evOf_delivers he (by omega)
      obtain ⟨hl, h4⟩ := ih hs (by omega)
      refine ⟨by simp only [List.length_cons, List.length_append]; omega, ?_⟩
      intro m key hc hm
      simp only [List.length_cons] at hm
      obtain ⟨m1, b, ha, hc1, hne1, hent1⟩ := SMap.assign_counted hc (by omega) k x
      obtain ⟨m', key', h5⟩ := h4 m1 k hc1 (by omega)
      refine ⟨m', key', fun rest root => ?_⟩
      simp only [cbRun, cbStep, Res.ok_bind]
      rw [cbRun_append, hrun]
      simp only [setParent, ha, Res.ok_bind]
      exact h5 rest root

theorem partOf_run {es : List Ev} (h : PartOf es) (hlen : es.length ≤ 1073643498) :
    ∃ pushed, ∀ cb : CbState, cbRun cb es = .ok ⟨pushed ++ cb.stack, cb.root⟩ := by
  have hnew : (SMap.new 8 : SMap Value).ne = 0 := by rw [new8_counted.ne_eq, new8_entries]; rfl
  induction h with
  | nil => exact ⟨[], fun cb => rfl⟩
  | arr he _ ih =>
    simp only [List.length_append, List.length_cons] at hlen
    obtain ⟨xs, _, _, _, hrun⟩ := evsOf_delivers he (by omega)
    obtain ⟨p, hp⟩ := ih (by omega)
    refine ⟨p ++ [(.arr xs, [])], fun cb => ?_⟩
    simp only [cbRun, cbStep, Res.ok_bind]
    rw [cbRun_append, hrun, Res.ok_bind, hp]
    simp
  | obj he =>
    simp only [List.length_cons] at hlen
    obtain ⟨hl, hrun⟩ := msOf_run he (by omega)
    obtain ⟨m', key', h⟩ := hrun (SMap.new 8) [] new8_counted (by omega)
    refine ⟨[(.obj m', key')], fun cb => ?_⟩
    simp only [cbRun, cbStep, Res.ok_bind]
    rw [h]
    simp
  | objKey he _ ih =>
    rename_i es ms k p _
    simp only [List.length_append, List.length_cons] at hlen
    obtain ⟨hl, hrun⟩ := msOf_run he (by omega)
    obtain ⟨m', key', h⟩ := hrun (SMap.new 8) [] new8_counted (by omega)
    obtain ⟨pp, hp⟩ := ih (by omega)
    refine ⟨pp ++ [(.obj m', k)], fun cb => ?_⟩
    simp only [cbRun, cbStep, Res.ok_bind]
    rw [cbRun_append, h]
    simp only [cbRun, cbStep, Res.ok_bind]
    rw [hp]
    simp

end Json
end Eni
