import Verif.Proofs.JsonPrint
/-!
# The whole parser: consequences used by the property theorems
-/
namespace Eni
namespace Json
open Spec

set_option linter.unusedSimpArgs false

/-- every outcome of the parser -/
theorem parse_post (L : Layout) (s : Bytes) (hlen : s.length ≤ 1073643498) :
    (∃ w t j r x, parse L s = .ok ⟨true, x⟩ ∧ s = w ++ (t ++ r) ∧ WS w ∧ JText t j ∧ Usable x ∧ (ShortKeys j → Shows x j)) ∨
    parse L s = .ok ⟨false, .undef⟩ := by
  have h := parseValue_post L (s.length + 1) ⟨s, []⟩ (by simp)
  unfold parse
  cases hp : parseValue L (s.length + 1) ⟨s, []⟩ with
  | ub u => rw [hp] at h; exact absurd h id
  | diverge => rw [hp] at h; exact absurd h id
  | ok u st =>
    left
    rw [hp] at h
    obtain ⟨w, t, j, es, hw, ht, hes, hit, hev, hl⟩ := h
    simp only [List.nil_append] at hit hev
    have : es.length ≤ 1073643498 := by
      have := congrArg List.length hit
      simp only [List.length_append] at this
      omega
    obtain ⟨x, hu, hsh, hrun⟩ := evOf_delivers hes this
    refine ⟨w, t, j, st.it, x, ?_, hit, hw, ht, hu, hsh⟩
    simp only
    rw [hev, hrun]
    rfl
  | err e st =>
    right
    rw [hp] at h
    obtain ⟨es, hpart, hev, hl⟩ := h
    simp only [List.nil_append] at hev hl
    obtain ⟨pushed, hrun⟩ := partOf_run hpart (by omega)
    simp only
    rw [hev, hrun]
    rfl

/-! ### the grammar is unambiguous -/

theorem intText_unique {t : Bytes} {z z' : Int} (h : IntText t z) (h' : IntText t z') : z = z' := by
  cases h with
  | nonneg h =>
    cases h' with
    | nonneg h' => rw [h.2.2.2, h'.2.2.2]
    | neg h' =>
      obtain ⟨c, cs, hc, hd⟩ := natText_head h
      simp only [List.cons.injEq] at hc
      exact absurd hc.1.symm (digit_ne_minus hd)
  | neg h =>
    cases h' with
    | nonneg h' =>
      obtain ⟨c, cs, hc, hd⟩ := natText_head h'
      simp only [List.cons.injEq] at hc
      exact absurd hc.1.symm (digit_ne_minus hd)
    | neg h' => rw [h.2.2.2, h'.2.2.2]

theorem evOf_head {es : List Ev} {j : JV} (h : EvOf es j) : ∃ e es', es = e :: es' ∧ e ≠ .endArray ∧ e ≠ .endObject ∧ ∀ k, e ≠ .string k true := by
  cases h
  · exact ⟨_, _, rfl, by simp, by simp, by simp⟩
  · exact ⟨_, _, rfl, by simp, by simp, by simp⟩
  · exact ⟨_, _, rfl, by simp, by simp, by simp⟩
  · exact ⟨_, _, rfl, by simp, by simp, by simp⟩
  · exact ⟨_, _, rfl, by simp, by simp, by simp⟩

/-- the events determine the value -/
theorem evOf_unique {es : List Ev} {j : JV} (h : EvOf es j) : ∀ es' j' r r', EvOf es' j' → es ++ r = es' ++ r' → j = j' ∧ r = r' := by
  refine EvOf.rec
    (motive_1 := fun es j _ => ∀ es' j' r r', EvOf es' j' → es ++ r = es' ++ r' → j = j' ∧ r = r')
    (motive_2 := fun es js _ => ∀ es' js' r r', EvsOf es' js' → es ++ .endArray :: r = es' ++ .endArray :: r' → js = js' ∧ r = r')
    (motive_3 := fun es ms _ => ∀ es' ms' r r', MsOf es' ms' → es ++ .endObject :: r = es' ++ .endObject :: r' → ms = ms' ∧ r = r')
    ?_ ?_ ?_ ?_ ?_ ?_ ?_ ?_ ?_ h
  · intro b es' j' r r' h' he
    cases h' <;> simp at he
    obtain ⟨rfl, rfl⟩ := he
    exact ⟨rfl, rfl⟩
  · intro t z hz es' j' r r' h' he
    cases h' with
    | number hz' =>
      simp at he
      obtain ⟨rfl, rfl⟩ := he
      rw [intText_unique hz hz']
      exact ⟨rfl, rfl⟩
    | _ => simp at he
  · intro s es' j' r r' h' he
    cases h' <;> simp at he
    obtain ⟨rfl, rfl⟩ := he
    exact ⟨rfl, rfl⟩
  · intro es js _ ih es' j' r r' h' he
    cases h' with
    | arr h' =>
      simp only [List.cons_append, List.cons.injEq, true_and, List.append_assoc, List.nil_append] at he
      obtain ⟨rfl, rfl⟩ := ih _ _ _ _ h' he
      exact ⟨rfl, rfl⟩
    | _ => simp at he
  · intro es ms _ ih es' j' r r' h' he
    cases h' with
    | obj h' =>
      simp only [List.cons_append, List.cons.injEq, true_and, List.append_assoc, List.nil_append] at he
      obtain ⟨rfl, rfl⟩ := ih _ _ _ _ h' he
      exact ⟨rfl, rfl⟩
    | _ => simp at he
  · intro es' js' r r' h' he
    cases h' with
    | nil => simp at he; exact ⟨rfl, he⟩
    | cons h1 h2 =>
      obtain ⟨e, es, rfl, hne, _⟩ := evOf_head h1
      simp at he
      exact absurd he.1.symm hne
  · intro es js e j he1 _ ih1 ih2 es' js' r r' h' he
    cases h' with
    | nil =>
      obtain ⟨e, es, rfl, hne, _⟩ := evOf_head he1
      simp at he
      exact absurd he.1 hne
    | cons h1 h2 =>
      simp only [List.append_assoc] at he
      obtain ⟨rfl, he⟩ := ih1 _ _ _ _ h1 he
      obtain ⟨rfl, rfl⟩ := ih2 _ _ _ _ h2 he
      exact ⟨rfl, rfl⟩
  · intro es' ms' r r' h' he
    cases h' with
    | nil => simp at he; exact ⟨rfl, he⟩
    | cons h1 h2 => simp at he
  · intro es ms k e j _ _ ih1 ih2 es' ms' r r' h' he
    cases h' with
    | nil => simp at he
    | cons h1 h2 =>
      simp only [List.cons_append, List.cons.injEq, List.append_assoc, Ev.string.injEq, and_true] at he
      obtain ⟨rfl, he⟩ := he
      obtain ⟨rfl, he⟩ := ih1 _ _ _ _ h1 he
      obtain ⟨rfl, rfl⟩ := ih2 _ _ _ _ h2 he
      exact ⟨rfl, rfl⟩

theorem good_layout : (⟨7, 0, 3⟩ : Layout).Good := by constructor <;> decide

/-- a text has one denotation, and no proper prefix of it denotes a value (numbers aside) -/
theorem jtext_unique {w w' t t' r r' : Bytes} {j j' : JV} (hw : WS w) (hw' : WS w') (h : JText t j) (h' : JText t' j')
    (hr : (∃ z, j = .int z) → NoDigit r) (hr' : (∃ z, j' = .int z) → NoDigit r') (he : w ++ (t ++ r) = w' ++ (t' ++ r')) :
    j = j' ∧ t = t' ∧ r = r' := by
  obtain ⟨es, h1, h2⟩ := accepts ⟨7, 0, 3⟩ h w r [] ((w ++ (t ++ r)).length + 1) hw (by simp; omega) hr (.inl good_layout)
  obtain ⟨es', h1', h2'⟩ := accepts ⟨7, 0, 3⟩ h' w' r' [] ((w' ++ (t' ++ r')).length + 1) hw' (by simp; omega) hr' (.inl good_layout)
  rw [← he, h2] at h2'
  simp only [List.nil_append, PRes.ok.injEq, PState.mk.injEq, true_and] at h2'
  obtain ⟨rfl, rfl⟩ := h2'
  refine ⟨(evOf_unique h1 _ _ [] [] h1' rfl).1, ?_, rfl⟩
  rw [← List.append_assoc, ← List.append_assoc] at he
  have he := List.append_cancel_right he
  have hd := congrArg dropWs he
  obtain ⟨c, cs, rfl, hc, _⟩ := jtext_head h
  obtain ⟨c', cs', rfl, hc', _⟩ := jtext_head h'
  rw [dropWs_cons hw hc, dropWs_cons hw' hc'] at hd
  exact hd

/-! ### objects do not survive printing -/

/-- an object whose first printed key does not begin, after white space, with a quote or a closing brace -/
theorem parse_object_bad_key (L : Layout) {k r : Bytes} {c : UInt8} (hk : (dropWs (k ++ r)).head? = some c) (h1 : c ≠ 34) (h2 : c ≠ 125) :
    parse L ([123, 10] ++ (k ++ r)) = .ok ⟨false, .undef⟩ := by
  have hd : dropWs ([123, 10] ++ (k ++ r)) = 123 :: 10 :: (k ++ r) := rfl
  have hd2 : dropWs (10 :: (k ++ r)) = dropWs (k ++ r) := rfl
  have hm := haveC_miss (c := 125) (st := ⟨dropWs (k ++ r), [.beginObject]⟩) (by decide) (by simp [hk, h2])
  have hs := parseString_miss true (it := dropWs (k ++ r)) [.beginObject] (by simp [dropWs_dropWs, hk, h1])
  rw [dropWs_dropWs] at hs
  have : ∀ n, parseObject (parseValue L n) ⟨[123, 10] ++ (k ++ r), []⟩ = .err .key ⟨dropWs (k ++ r), [.beginObject]⟩ := by
    intro n
    unfold parseObject
    rw [bind_apply, skipWs_apply]
    simp only [hd]
    simp [bind_apply, haveC_hit, emit_apply, skipWs_apply, hd2, hm, membersLoop, hs, error_apply]
  have hv : parseValue L (([123, 10] ++ (k ++ r)).length + 1) ⟨[123, 10] ++ (k ++ r), []⟩ = .err .key ⟨dropWs (k ++ r), [.beginObject]⟩ := by
    unfold parseValue
    rw [bind_apply, this]
  unfold parse
  rw [hv]
  rfl

end Json
end Eni
