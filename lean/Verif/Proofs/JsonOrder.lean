import Verif.Proofs.JsonParse
/-!
# Printed objects: order of members, ambiguity
-/
namespace Eni
namespace Json
open Spec

theorem print_bindings (m : SMap Value) :
    Value.print (.obj m) = [123, 10] ++ [44].intercalate ((SMap.bindings m).map fun kv => kv.1 ++ 58 :: Value.print kv.2) ++ [10, 125] := by
  rw [print_obj, printMembers_eq, List.map_map]
  rfl

/-- a map that shows one member prints it -/
theorem shows_one {x : Value} {k : Bytes} {j : JV} (h : Shows x (.obj [(k, j)])) :
    ∃ v, Shows v j ∧ Value.print x = [123, 10] ++ (k ++ 58 :: Value.print v) ++ [10, 125] := by
  cases h with
  | @obj m _ a1 a2 a3 a4 a5 a6 =>
    have hp : (SMap.bindings m).map Prod.fst = [k] := List.perm_singleton.mp (by simpa using a2)
    obtain ⟨p, hb⟩ : ∃ p, SMap.bindings m = [p] := by
      have : (SMap.bindings m).length = 1 := by
        have := congrArg List.length hp
        simpa using this
      exact List.length_eq_one_iff.mp this
    obtain ⟨k', v⟩ := p
    have hk : k' = k := by simpa [hb] using hp
    subst hk
    have hf := a3 k' v (by rw [hb]; simp)
    refine ⟨v, a6 k' j v (by simp [lastMember, FMap.lookup]) hf, ?_⟩
    rw [print_bindings, hb]
    simp [List.intercalate]

theorem lastMember_two {k₁ k₂ : Bytes} {a b : JV} (h : k₁ ≠ k₂) :
    lastMember [(k₁, a), (k₂, b)] k₁ = some a ∧ lastMember [(k₁, a), (k₂, b)] k₂ = some b := by
  simp [lastMember, FMap.lookup, h.symm]

/-- a map that shows two members prints them in one of the two orders -/
theorem shows_two {x : Value} {k₁ k₂ : Bytes} {a b : JV} (hne : k₁ ≠ k₂) (h : Shows x (.obj [(k₁, a), (k₂, b)])) :
    ∃ v w, Shows v a ∧ Shows w b ∧
      (Value.print x = [123, 10] ++ (k₁ ++ 58 :: (Value.print v ++ 44 :: (k₂ ++ 58 :: Value.print w))) ++ [10, 125] ∨
       Value.print x = [123, 10] ++ (k₂ ++ 58 :: (Value.print w ++ 44 :: (k₁ ++ 58 :: Value.print v))) ++ [10, 125]) := by
  cases h with
  | @obj m _ a1 a2 a3 a4 a5 a6 =>
    have hd : ([(k₁, a), (k₂, b)].map Prod.fst).dedup = [k₁, k₂] := by simp [hne]
    rw [hd] at a2
    have hl : (SMap.bindings m).length = 2 := by simpa using a2.length_eq
    obtain ⟨p, q, hb⟩ := List.length_eq_two.mp hl
    obtain ⟨x1, v1⟩ := p
    obtain ⟨x2, v2⟩ := q
    have f1 := a3 x1 v1 (by rw [hb]; simp)
    have f2 := a3 x2 v2 (by rw [hb]; simp)
    obtain ⟨l1, l2⟩ := lastMember_two (a := a) (b := b) hne
    have hpr := print_bindings m
    rw [hb] at a2 hpr
    have hmem1 : x1 ∈ [k₁, k₂] := a2.subset (by simp)
    have hmem2 : x2 ∈ [k₁, k₂] := a2.subset (by simp)
    have hnd : x1 ≠ x2 := by
      have := a2.nodup_iff.mpr (by simpa using hne)
      simpa using this
    simp only [List.mem_cons, List.not_mem_nil, or_false] at hmem1 hmem2
    rcases hmem1 with rfl | rfl <;> rcases hmem2 with rfl | rfl
    · exact absurd rfl hnd
    · exact ⟨v1, v2, a6 _ _ _ l1 f1, a6 _ _ _ l2 f2, .inl (by rw [hpr]; simp [List.intercalate])⟩
    · exact ⟨v2, v1, a6 _ _ _ l1 f2, a6 _ _ _ l2 f1, .inr (by rw [hpr]; simp [List.intercalate])⟩
    · exact absurd rfl hnd

theorem printStr_length (s : Bytes) : (Value.printStr s).length ≤ 6 * s.length + 2 := by
  have : (s.flatMap Value.printChar).length ≤ 6 * s.length := by
    induction s with
    | nil => simp
    | cons c s ih =>
      have : (Value.printChar c).length ≤ 6 := by
        unfold Value.printChar
        split
        · simp
        · split <;> simp
      rw [List.flatMap_cons, List.length_append, List.length_cons]
      omega
  unfold Value.printStr
  rw [List.length_append, List.length_cons, List.length_singleton]
  omega

/-- the text of an object with one member -/
theorem member_text (k : Bytes) {t : Bytes} {j : JV} (h : JText t j) : JText (123 :: (Value.printStr k ++ 58 :: t ++ [125])) (.obj [(k, j)]) := by
  have hk : JText (Value.printStr k) (.str k) := printStr_text k
  generalize hp : Value.printStr k = p at hk
  cases hk with
  | @str b _ hb =>
    have := JText.obj (Members.one (w := []) (w1 := []) (w2 := []) (w3 := []) (by simp [WS]) hb (by simp [WS]) (by simp [WS]) h (by simp [WS]))
    simpa using this

theorem lastMember_perm {ms ms' : List (Bytes × JV)} (h : ms.Perm ms') (hn : (ms.map Prod.fst).Nodup) (k : Bytes) :
    lastMember ms k = lastMember ms' k := by
  have hn' : (ms'.map Prod.fst).Nodup := (h.map Prod.fst).nodup_iff.mp hn
  have f' : FMap.Functional ms'.reverse := by
    unfold FMap.Functional
    rw [List.map_reverse]
    exact List.nodup_reverse.mpr hn'
  have hp : ms.reverse.Perm ms'.reverse := (List.reverse_perm ms).trans (h.trans (List.reverse_perm ms').symm)
  unfold lastMember
  cases hl : FMap.lookup ms.reverse k with
  | none =>
    symm
    rw [FMap.lookup_none_iff] at hl ⊢
    intro v hv
    exact hl v (hp.symm.subset hv)
  | some v => exact (FMap.lookup_of_mem f' (hp.subset (FMap.mem_of_lookup hl))).symm

/-- the order of members with different keys does not matter -/
theorem shows_perm {m : SMap Value} {ms ms' : List (Bytes × JV)} (h : ms.Perm ms') (hn : (ms.map Prod.fst).Nodup)
    (hs : Shows (.obj m) (.obj ms)) : Shows (.obj m) (.obj ms') := by
  have hd := (h.map Prod.fst).dedup
  cases hs with
  | obj a1 a2 a3 a4 a5 a6 =>
    refine .obj (by rw [a1]; exact hd.length_eq) (a2.trans hd) a3 ?_ ?_ ?_
    · intro k hk
      exact a4 k (by rw [lastMember_perm h hn, hk])
    · intro k j hk
      exact a5 k j (by rw [lastMember_perm h hn, hk])
    · intro k j v hk
      exact a6 k j v (by rw [lastMember_perm h hn, hk])

theorem obj_of_shows {v : Value} {ms : List (Bytes × JV)} (h : Shows v (.obj ms)) : ∃ m, v = .obj m := by
  cases h with
  | obj => exact ⟨_, rfl⟩

/-- two maps that show the same object-free members agree in every lookup -/
theorem shows_find {m m' : SMap Value} {ms : List (Bytes × JV)} (hv : Shows (.obj m) (.obj ms)) (hv' : Shows (.obj m') (.obj ms))
    (hf : ∀ k j, (k, j) ∈ ms → ObjFree j) (k : Bytes) : SMap.find m k = SMap.find m' k := by
  cases hv with
  | obj _ a2 a3 a4 a5 a6 =>
    cases hv' with
    | obj _ b2 b3 b4 b5 b6 =>
      cases hl : lastMember ms k with
      | none => rw [a4 k hl, b4 k hl]
      | some j =>
        obtain ⟨x, hx⟩ := a5 k j hl
        obtain ⟨y, hy⟩ := b5 k j hl
        have hm : (k, j) ∈ ms := by
          have := FMap.mem_of_lookup hl
          simpa using this
        have := shows_unique (a6 k j x hl hx) (hf k j hm) y (b6 k j y hl hy)
        rw [hx, hy, this]

theorem int_text {t : Bytes} {n : Nat} (h : NatText t n) (hn : n < 2 ^ 256) : JText t (.int n) := by
  have := JText.int (.nonneg h)
  rwa [wrap256_of_lt (by omega)] at this

end Json
end Eni
