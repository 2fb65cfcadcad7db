import Verif.Proofs.JsonComplete
import Verif.Spec.JsonDepth
/-!
# How many activations of `parse_value` are nested
-/
namespace Eni
namespace Json
open Spec

set_option linter.unusedSimpArgs false

/-! ### well-formed texts -/

def Exact (L : Layout) (t : Bytes) (j : JV) : Prop := ∀ (w r : Bytes) (ev : List Ev) (n : Nat), WS w →
  ((∃ z, j = .int z) → NoDigit r) → Reads L j →
  (Within n j ∧ ∃ es, EvOf es j ∧ parseValue L n ⟨w ++ (t ++ r), ev⟩ = .ok () ⟨r, ev ++ es⟩) ∨
  (¬ Within n j ∧ parseValue L n ⟨w ++ (t ++ r), ev⟩ = .diverge)

def ExactElems (L : Layout) (t : Bytes) (js : List JV) : Prop := ∀ (r : Bytes) (ev : List Ev) (n fuel : Nat),
  (dropWs (t ++ 93 :: r)).length < fuel → (∀ j ∈ js, Reads L j) →
  ((∀ j ∈ js, Within n j) ∧ ∃ es, EvsOf es js ∧ elemsLoop (parseValue L n) fuel ⟨t ++ 93 :: r, ev⟩ = .ok () ⟨93 :: r, ev ++ es⟩) ∨
  ((¬ ∀ j ∈ js, Within n j) ∧ elemsLoop (parseValue L n) fuel ⟨t ++ 93 :: r, ev⟩ = .diverge)

def ExactMembers (L : Layout) (t : Bytes) (ms : List (Bytes × JV)) : Prop := ∀ (r : Bytes) (ev : List Ev) (n fuel : Nat),
  (dropWs (t ++ 125 :: r)).length < fuel → (∀ k j, (k, j) ∈ ms → Reads L j) →
  ((∀ k j, (k, j) ∈ ms → Within n j) ∧
    ∃ es, MsOf es ms ∧ membersLoop (parseValue L n) fuel ⟨t ++ 125 :: r, ev⟩ = .ok () ⟨125 :: r, ev ++ es⟩) ∨
  ((¬ ∀ k j, (k, j) ∈ ms → Within n j) ∧ membersLoop (parseValue L n) fuel ⟨t ++ 125 :: r, ev⟩ = .diverge)

theorem within_zero (j : JV) : ¬ Within 0 j := by intro h; cases h

theorem within_arr {n : Nat} {js : List JV} : Within (n + 1) (.arr js) ↔ ∀ j ∈ js, Within n j :=
  ⟨fun h => by cases h with | arr h => exact h, .arr⟩

theorem within_obj {n : Nat} {ms : List (Bytes × JV)} : Within (n + 1) (.obj ms) ↔ ∀ k j, (k, j) ∈ ms → Within n j :=
  ⟨fun h => by cases h with | obj h => exact h, .obj⟩

theorem parseArray_diverge {L : Layout} {n : Nat} {w t r : Bytes} {js : List JV} {ev : List Ev} (hw : WS w) (h : Elems t js)
    (hl : elemsLoop (parseValue L n) ((dropWs (t ++ 93 :: r)).length + 1) ⟨t ++ 93 :: r, ev ++ [.beginArray]⟩ = .diverge) :
    parseArray (parseValue L n) ⟨w ++ 91 :: (t ++ 93 :: r), ev⟩ = .diverge := by
  have hd : dropWs (w ++ 91 :: (t ++ 93 :: r)) = 91 :: (t ++ 93 :: r) := dropWs_cons hw rfl
  have h2 := haveC_miss (c := 93) (st := ⟨dropWs (t ++ 93 :: r), ev ++ [.beginArray]⟩) (by decide)
    (accepts_elem_first (L := L) h (93 :: r))
  rw [← elemsLoop_dropWs] at hl
  unfold parseArray
  simp [bind_apply, skipWs_apply, hd, haveC_hit, emit_apply, h2, hl, expectC, pure_apply]

theorem parseObject_diverge {L : Layout} {n : Nat} {w t r : Bytes} {ms : List (Bytes × JV)} {ev : List Ev} (hw : WS w)
    (h : Members t ms)
    (hl : membersLoop (parseValue L n) ((dropWs (t ++ 125 :: r)).length + 1) ⟨t ++ 125 :: r, ev ++ [.beginObject]⟩ = .diverge) :
    parseObject (parseValue L n) ⟨w ++ 123 :: (t ++ 125 :: r), ev⟩ = .diverge := by
  have hd : dropWs (w ++ 123 :: (t ++ 125 :: r)) = 123 :: (t ++ 125 :: r) := dropWs_cons hw rfl
  have h2 := haveC_miss (c := 125) (st := ⟨dropWs (t ++ 125 :: r), ev ++ [.beginObject]⟩) (by decide)
    (accepts_member_first h (125 :: r))
  rw [← membersLoop_dropWs] at hl
  unfold parseObject
  simp [bind_apply, skipWs_apply, hd, haveC_hit, emit_apply, h2, hl, expectC, pure_apply]

theorem parseValue_obj_div {L : Layout} {n : Nat} {it : Bytes} {ev : List Ev}
    (h : parseObject (parseValue L n) ⟨it, ev⟩ = .diverge) : parseValue L (n + 1) ⟨it, ev⟩ = .diverge := by
  unfold parseValue
  simp [bind_apply, h, pure_apply]

theorem parseValue_arr_div {L : Layout} {n : Nat} {it : Bytes} {ev : List Ev} (hd : (dropWs it).head? = some 91)
    (h : parseArray (parseValue L n) ⟨it, ev⟩ = .diverge) : parseValue L (n + 1) ⟨it, ev⟩ = .diverge := by
  unfold parseValue
  rw [← parseArray_dropWs] at h
  simp [bind_apply, parseObject_miss (parseValue L n) ev (it := it) (by simp [hd]), h, pure_apply]

/-- with `n` nested activations the parser reads exactly the values of at most `n` levels -/
theorem exact_depth (L : Layout) {t : Bytes} {j : JV} (h : JText t j) : Exact L t j := by
  refine JText.rec (motive_1 := fun t j _ => Exact L t j) (motive_2 := fun t js _ => ExactElems L t js)
    (motive_3 := fun t ms _ => ExactMembers L t ms) ?_ ?_ ?_ ?_ ?_ ?_ ?_ ?_ ?_ ?_ ?_ ?_ h
  · intro w r ev n hw _ hL
    cases n with
    | zero => exact .inr ⟨within_zero _, rfl⟩
    | succ n =>
      rcases hL with hL | hL
      · have hd : dropWs (w ++ ([116, 114, 117, 101] ++ r)) = [116, 114, 117, 101] ++ r := dropWs_cons hw rfl
        refine .inl ⟨.bool, [.boolean true], .boolean, parseValue_bool (c := 116) (by rw [hd]; rfl) (.inl rfl) ?_⟩
        rw [hd]
        exact parseBoolean_true hL (w := []) (by simp [WS]) r ev
      · cases hL
  · intro w r ev n hw _ hL
    cases n with
    | zero => exact .inr ⟨within_zero _, rfl⟩
    | succ n =>
      rcases hL with hL | hL
      · have hd : dropWs (w ++ ([102, 97, 108, 115, 101] ++ r)) = [102, 97, 108, 115, 101] ++ r := dropWs_cons hw rfl
        refine .inl ⟨.bool, [.boolean false], .boolean, parseValue_bool (c := 102) (by rw [hd]; rfl) (.inr rfl) ?_⟩
        rw [hd]
        exact parseBoolean_false hL (w := []) (by simp [WS]) r ev
      · cases hL
  · intro t z hz w r ev n hw hr hL
    cases n with
    | zero => exact .inr ⟨within_zero _, rfl⟩
    | succ n =>
      obtain ⟨c, cs, ht, hc, _⟩ := jtext_head (JText.int hz)
      have hd : dropWs (w ++ (t ++ r)) = t ++ r := by rw [ht]; exact dropWs_cons hw hc
      refine .inl ⟨.int, [.number t], .number hz, parseValue_num (c := c) (by rw [hd, ht]; rfl) ?_ ?_⟩
      · cases hz with
        | nonneg h =>
          obtain ⟨c', cs', h1, h2⟩ := natText_head h
          rw [h1] at ht
          cases ht
          exact .inl h2
        | neg h =>
          cases ht
          exact .inr rfl
      · rw [hd]
        exact parseNumber_complete (w := []) (by simp [WS]) hz r (hr ⟨_, rfl⟩) ev
  · intro b s hb w r ev n hw _ _
    cases n with
    | zero => exact .inr ⟨within_zero _, rfl⟩
    | succ n =>
      have he : w ++ (34 :: (b ++ [34]) ++ r) = w ++ 34 :: (b ++ 34 :: r) := by simp
      rw [he]
      exact .inl ⟨.str, [.string s false], .str, parseValue_str (by rw [dropWs_cons hw rfl]; rfl) (parseString_complete hw hb false r ev)⟩
  · intro w0 hw0 w r ev n hw _ _
    cases n with
    | zero => exact .inr ⟨within_zero _, rfl⟩
    | succ n =>
      have he : w ++ (91 :: (w0 ++ [93]) ++ r) = w ++ 91 :: (w0 ++ 93 :: r) := by simp
      rw [he]
      exact .inl ⟨.arr (by simp), [.beginArray, .endArray], .arr .nil, parseValue_arr (by rw [dropWs_cons hw rfl]; rfl) (parseArray_empty hw hw0 ev)⟩
  · intro t js ht ih w r ev n hw _ hL
    cases n with
    | zero => exact .inr ⟨within_zero _, rfl⟩
    | succ n =>
      have he : w ++ (91 :: (t ++ [93]) ++ r) = w ++ 91 :: (t ++ 93 :: r) := by simp
      rw [he, within_arr]
      rcases ih r (ev ++ [.beginArray]) n ((dropWs (t ++ 93 :: r)).length + 1) (by omega) (reads_arr hL) with ⟨hin, es, h1, h2⟩ | ⟨hin, h2⟩
      · exact .inl ⟨hin, _, .arr h1, parseValue_arr (by rw [dropWs_cons hw rfl]; rfl) (parseArray_elems hw ht h2)⟩
      · exact .inr ⟨hin, parseValue_arr_div (by rw [dropWs_cons hw rfl]; rfl) (parseArray_diverge hw ht h2)⟩
  · intro w0 hw0 w r ev n hw _ _
    cases n with
    | zero => exact .inr ⟨within_zero _, rfl⟩
    | succ n =>
      have he : w ++ (123 :: (w0 ++ [125]) ++ r) = w ++ 123 :: (w0 ++ 125 :: r) := by simp
      rw [he]
      exact .inl ⟨.obj (by simp), [.beginObject, .endObject], .obj .nil, parseValue_obj (parseObject_empty hw hw0 ev)⟩
  · intro t ms ht ih w r ev n hw _ hL
    cases n with
    | zero => exact .inr ⟨within_zero _, rfl⟩
    | succ n =>
      have he : w ++ (123 :: (t ++ [125]) ++ r) = w ++ 123 :: (t ++ 125 :: r) := by simp
      rw [he, within_obj]
      rcases ih r (ev ++ [.beginObject]) n ((dropWs (t ++ 125 :: r)).length + 1) (by omega) (reads_obj hL) with ⟨hin, es, h1, h2⟩ | ⟨hin, h2⟩
      · exact .inl ⟨hin, _, .obj h1, parseValue_obj (parseObject_members hw ht h2)⟩
      · exact .inr ⟨hin, parseValue_obj_div (parseObject_diverge hw ht h2)⟩
  · intro w t w' j hw ht hw' ih r ev n fuel hf hL
    obtain ⟨fuel, rfl⟩ : ∃ k, fuel = k + 1 := ⟨fuel - 1, by omega⟩
    have he : w ++ (t ++ w') ++ 93 :: r = w ++ (t ++ (w' ++ 93 :: r)) := by simp
    rw [he]
    rcases ih w (w' ++ 93 :: r) ev n hw (fun _ => noDigit_ws hw' not_digit_93) (hL j (by simp)) with ⟨hin, es, h1, h2⟩ | ⟨hin, h2⟩
    · have hm := haveC_miss (c := 44) (st := ⟨93 :: r, ev ++ es⟩) (by decide) (by simp)
      refine .inl ⟨by simpa using hin, es ++ [], .cons h1 .nil, ?_⟩
      unfold elemsLoop
      simp [bind_apply, h2, skipWs_apply, dropWs_cons (r := r) hw' (c := 93) rfl, hm, pure_apply]
    · refine .inr ⟨by simpa using hin, ?_⟩
      unfold elemsLoop
      simp [bind_apply, h2]
  · intro w t w' j rs js hw ht hw' _ ih ihr r ev n fuel hf hL
    obtain ⟨fuel, rfl⟩ : ∃ k, fuel = k + 1 := ⟨fuel - 1, by omega⟩
    have he : w ++ (t ++ (w' ++ 44 :: rs)) ++ 93 :: r = w ++ (t ++ (w' ++ 44 :: (rs ++ 93 :: r))) := by simp
    rw [he] at hf ⊢
    rcases ih w (w' ++ 44 :: (rs ++ 93 :: r)) ev n hw (fun _ => noDigit_ws hw' not_digit_44) (hL j (by simp)) with ⟨hin, es, h1, h2⟩ | ⟨hin, h2⟩
    · have hf' : (dropWs (rs ++ 93 :: r)).length < fuel := by
        obtain ⟨c, cs, rfl, hc, _⟩ := jtext_head ht
        rw [List.cons_append, dropWs_cons hw hc] at hf
        have := dropWs_length (rs ++ 93 :: r)
        simp only [List.length_cons, List.length_append] at hf this
        omega
      rcases ihr r (ev ++ es) n fuel hf' (fun j hj => hL j (by simp [hj])) with ⟨hin', es', h3, h4⟩ | ⟨hin', h4⟩
      · refine .inl ⟨by simpa using ⟨hin, hin'⟩, es ++ es', .cons h1 h3, ?_⟩
        unfold elemsLoop
        simp [bind_apply, h2, skipWs_apply, dropWs_cons (r := rs ++ 93 :: r) hw' (c := 44) rfl, haveC_hit, h4]
      · refine .inr ⟨fun hall => hin' fun j hj => hall j (by simp [hj]), ?_⟩
        unfold elemsLoop
        simp [bind_apply, h2, skipWs_apply, dropWs_cons (r := rs ++ 93 :: r) hw' (c := 44) rfl, haveC_hit, h4]
    · refine .inr ⟨fun hall => hin (hall j (by simp)), ?_⟩
      unfold elemsLoop
      simp [bind_apply, h2]
  · intro w b k w1 w2 t w3 j hw hb hw1 hw2 ht hw3 ih r ev n fuel hf hL
    obtain ⟨fuel, rfl⟩ : ∃ k, fuel = k + 1 := ⟨fuel - 1, by omega⟩
    have he : w ++ 34 :: (b ++ 34 :: (w1 ++ 58 :: (w2 ++ (t ++ w3)))) ++ 125 :: r =
        w ++ 34 :: (b ++ 34 :: (w1 ++ 58 :: (w2 ++ (t ++ (w3 ++ 125 :: r))))) := by simp
    rw [he]
    have hs := parseString_complete hw hb true (w1 ++ 58 :: (w2 ++ (t ++ (w3 ++ 125 :: r)))) ev
    rcases ih w2 (w3 ++ 125 :: r) (ev ++ [.string k true]) n hw2
      (fun _ => noDigit_ws hw3 not_digit_125) (hL k j (by simp)) with ⟨hin, es, h1, h2⟩ | ⟨hin, h2⟩
    · have hm := haveC_miss (c := 44) (st := ⟨125 :: r, ev ++ [.string k true] ++ es⟩) (by decide) (by simp)
      refine .inl ⟨by intro k' j' h'; simp only [List.mem_singleton, Prod.mk.injEq] at h'; rw [h'.2]; exact hin,
        .string k true :: (es ++ []), .cons h1 .nil, ?_⟩
      unfold membersLoop
      simp only [List.append_assoc, List.singleton_append] at hm h2
      simp [bind_apply, hs, pure_apply, skipWs_apply, dropWs_cons hw1 (c := 58) rfl, expectC, haveC_hit, h2,
        dropWs_cons (r := r) hw3 (c := 125) rfl, hm]
    · refine .inr ⟨fun hall => hin (hall k j (by simp)), ?_⟩
      unfold membersLoop
      simp [bind_apply, hs, pure_apply, skipWs_apply, dropWs_cons hw1 (c := 58) rfl, expectC, haveC_hit, h2]
  · intro w b k w1 w2 t w3 j rs ms hw hb hw1 hw2 ht hw3 _ ih ihr r ev n fuel hf hL
    obtain ⟨fuel, rfl⟩ : ∃ k, fuel = k + 1 := ⟨fuel - 1, by omega⟩
    have he : w ++ 34 :: (b ++ 34 :: (w1 ++ 58 :: (w2 ++ (t ++ (w3 ++ 44 :: rs))))) ++ 125 :: r =
        w ++ 34 :: (b ++ 34 :: (w1 ++ 58 :: (w2 ++ (t ++ (w3 ++ 44 :: (rs ++ 125 :: r)))))) := by simp
    rw [he] at hf ⊢
    have hs := parseString_complete hw hb true (w1 ++ 58 :: (w2 ++ (t ++ (w3 ++ 44 :: (rs ++ 125 :: r))))) ev
    rcases ih w2 (w3 ++ 44 :: (rs ++ 125 :: r)) (ev ++ [.string k true]) n hw2
      (fun _ => noDigit_ws hw3 not_digit_44) (hL k j (by simp)) with ⟨hin, es, h1, h2⟩ | ⟨hin, h2⟩
    · have hf' : (dropWs (rs ++ 125 :: r)).length < fuel := by
        rw [dropWs_cons hw rfl] at hf
        have := dropWs_length (rs ++ 125 :: r)
        simp only [List.length_cons, List.length_append] at hf this
        omega
      simp only [List.append_assoc, List.singleton_append] at h2
      rcases ihr r (ev ++ .string k true :: es) n fuel hf' (fun k j hj => hL k j (by simp [hj])) with ⟨hin', es', h3, h4⟩ | ⟨hin', h4⟩
      · refine .inl ⟨?_, .string k true :: (es ++ es'), .cons h1 h3, ?_⟩
        · intro k' j' h'
          rcases List.mem_cons.mp h' with h' | h'
          · cases h'; exact hin
          · exact hin' k' j' h'
        · unfold membersLoop
          simp [bind_apply, hs, pure_apply, skipWs_apply, dropWs_cons hw1 (c := 58) rfl, expectC, haveC_hit, h2,
            dropWs_cons (r := rs ++ 125 :: r) hw3 (c := 44) rfl, h4]
      · refine .inr ⟨fun hall => hin' fun k j hj => hall k j (by simp [hj]), ?_⟩
        unfold membersLoop
        simp [bind_apply, hs, pure_apply, skipWs_apply, dropWs_cons hw1 (c := 58) rfl, expectC, haveC_hit, h2,
          dropWs_cons (r := rs ++ 125 :: r) hw3 (c := 44) rfl, h4]
    · refine .inr ⟨fun hall => hin (hall k j (by simp)), ?_⟩
      unfold membersLoop
      simp [bind_apply, hs, pure_apply, skipWs_apply, dropWs_cons hw1 (c := 58) rfl, expectC, haveC_hit, h2]

/-! ### any text -/

theorem opens_append (a b : Bytes) : opens (a ++ b) = opens a + opens b := by simp [opens]

theorem opens_length (s : Bytes) : opens s ≤ s.length := List.countP_le_length

/-- what is left of the text after a success is part of what was there before -/
def Shrinks {α : Type} (x : P α) : Prop := ∀ st a st', x st = .ok a st' → opens st'.it ≤ opens st.it

theorem Shrinks.bind {α β : Type} {x : P α} {f : α → P β} (hx : Shrinks x) (hf : ∀ a, Shrinks (f a)) : Shrinks (x >>= f) := by
  intro st b st' h
  rw [bind_apply] at h
  cases hr : x st with
  | ok a s1 =>
    rw [hr] at h
    exact Nat.le_trans (hf a s1 b st' h) (hx st a s1 hr)
  | err e s1 => rw [hr] at h; cases h
  | ub u => rw [hr] at h; cases h
  | diverge => rw [hr] at h; cases h

theorem Shrinks.pure {α : Type} (a : α) : Shrinks (pure a : P α) := by
  intro st b st' h
  cases h
  exact Nat.le_refl _

theorem Shrinks.skipWs : Shrinks skipWs := by
  intro st b st' h
  rw [skipWs_apply] at h
  cases h
  obtain ⟨w, _, hit, _⟩ := dropWs_spec st.it
  simp only
  rw [hit, opens_append, dropWs_append (by assumption) (by assumption)]
  omega

theorem Shrinks.emit (e : Ev) : Shrinks (emit e) := by
  intro st b st' h
  cases h
  exact Nat.le_refl _

theorem Shrinks.error {α : Type} (e : PErr) : Shrinks (error e : P α) := by
  intro st b st' h
  cases h

theorem Shrinks.haveC {c : UInt8} : Shrinks (haveC c) := by
  intro st b st' h
  obtain ⟨it, ev⟩ := st
  cases it with
  | nil =>
    simp only [Json.haveC] at h
    split at h <;> cases h
    exact Nat.le_refl _
  | cons x xs =>
    simp only [Json.haveC] at h
    split at h <;> cases h
    · exact opens_append [x] xs ▸ Nat.le_add_left _ _
    · exact Nat.le_refl _

theorem Shrinks.expectC {c : UInt8} {e : PErr} : Shrinks (expectC c e) := by
  unfold Json.expectC
  refine .bind .haveC fun a => ?_
  cases a
  · exact .error _
  · exact .pure _

theorem Shrinks.ofBPost {x : P Bool} (h : ∀ st, BPost st (x st)) : Shrinks x := by
  intro st a st' hx
  have := h st
  rw [hx] at this
  cases a with
  | true =>
    obtain ⟨w, t, j, es, _, _, _, hit, _⟩ := this
    rw [hit, opens_append, opens_append]
    omega
  | false =>
    have this : st' = ⟨dropWs st.it, st.ev⟩ := this
    rw [this]
    exact Shrinks.skipWs st () _ (skipWs_apply st)

theorem Shrinks.parseString (k : Bool) : Shrinks (parseString k) := by
  intro st a st' hx
  rcases parseString_post k st with ⟨w, b, s, r, h, _, hit, _⟩ | ⟨h, _⟩ | ⟨e, r, h⟩
  · rw [hx] at h
    cases h
    have : w ++ 34 :: (b ++ 34 :: r) = (w ++ 34 :: (b ++ [34])) ++ r := by simp
    rw [hit, this, opens_append]
    exact Nat.le_add_left _ _
  · rw [hx] at h
    cases h
    exact Shrinks.skipWs st () _ (skipWs_apply st)
  · rw [hx] at h
    cases h

theorem Shrinks.ite {α : Type} {x y : P α} {b : Bool} (hx : Shrinks x) (hy : Shrinks y) : Shrinks (if b then x else y) := by
  cases b
  · exact hy
  · exact hx

theorem Shrinks.elemsLoop {pv : P Unit} (h : Shrinks pv) : ∀ fuel, Shrinks (elemsLoop pv fuel) := by
  intro fuel
  induction fuel with
  | zero => intro st a st' hx; cases hx
  | succ fuel ih =>
    unfold Json.elemsLoop
    exact .bind h fun _ => .bind .skipWs fun _ => .bind .haveC fun _ => .ite ih (.pure _)

theorem Shrinks.membersLoop {pv : P Unit} (h : Shrinks pv) : ∀ fuel, Shrinks (membersLoop pv fuel) := by
  intro fuel
  induction fuel with
  | zero => intro st a st' hx; cases hx
  | succ fuel ih =>
    unfold Json.membersLoop
    have hr : Shrinks (do
        Json.skipWs
        Json.expectC 58 .colon
        pv
        Json.skipWs
        if ← Json.haveC 44 then Json.membersLoop pv fuel else Pure.pure ()) :=
      .bind .skipWs fun _ => .bind .expectC fun _ => .bind h fun _ => .bind .skipWs fun _ => .bind .haveC fun _ => .ite ih (.pure _)
    exact .bind (.parseString _) fun _ => .ite hr (.bind (.error _) fun _ => hr)

theorem Shrinks.parseArray {pv : P Unit} (h : Shrinks pv) : Shrinks (parseArray pv) := by
  have hl : Shrinks (fun st => Json.elemsLoop pv (st.it.length + 1) st) := fun st => Shrinks.elemsLoop h _ st
  unfold Json.parseArray
  exact .bind .skipWs fun _ => .bind .haveC fun _ => .ite
    (.bind (.emit _) fun _ => .bind .skipWs fun _ => .bind .haveC fun _ => .ite (.bind (.emit _) fun _ => .pure _)
      (.bind hl fun _ => .bind .expectC fun _ => .bind (.emit _) fun _ => .pure _)) (.pure _)

theorem Shrinks.parseObject {pv : P Unit} (h : Shrinks pv) : Shrinks (parseObject pv) := by
  have hl : Shrinks (fun st => Json.membersLoop pv (st.it.length + 1) st) := fun st => Shrinks.membersLoop h _ st
  unfold Json.parseObject
  exact .bind .skipWs fun _ => .bind .haveC fun _ => .ite
    (.bind (.emit _) fun _ => .bind .skipWs fun _ => .bind .haveC fun _ => .ite (.bind (.emit _) fun _ => .pure _)
      (.bind hl fun _ => .bind .expectC fun _ => .bind (.emit _) fun _ => .pure _)) (.pure _)

theorem Shrinks.parseValue (L : Layout) : ∀ n, Shrinks (parseValue L n) := by
  intro n
  induction n with
  | zero => intro st a st' hx; cases hx
  | succ n ih =>
    unfold Json.parseValue
    exact .bind (.parseObject ih) fun _ => .ite (.pure _) (.bind (.parseArray ih) fun _ => .ite (.pure _)
      (.bind (.parseString _) fun _ => .ite (.pure _) (.bind (.ofBPost (parseBoolean_bpost L)) fun _ => .ite (.pure _)
        (.bind (.ofBPost parseNumber_bpost) fun _ => .ite (.pure _) (.error _)))))

/-- two parsers that agree on all states with at most `N` opening brackets left -/
def AgreeUpTo {α : Type} (N : Nat) (x y : P α) : Prop := ∀ st : PState, opens st.it ≤ N → x st = y st

theorem AgreeUpTo.refl {α : Type} (N : Nat) (x : P α) : AgreeUpTo N x x := fun _ _ => rfl

theorem AgreeUpTo.bind {α β : Type} {N : Nat} {x y : P α} {f g : α → P β} (h : AgreeUpTo N x y) (hs : Shrinks x) (hf : ∀ a, AgreeUpTo N (f a) (g a)) :
    AgreeUpTo N (x >>= f) (y >>= g) := by
  intro st hst
  rw [bind_apply, bind_apply, ← h st hst]
  cases hr : x st with
  | ok a s1 => exact hf a s1 (Nat.le_trans (hs st a s1 hr) hst)
  | err e s1 => rfl
  | ub u => rfl
  | diverge => rfl

theorem AgreeUpTo.ite {α : Type} {N : Nat} {x y x' y' : P α} {b : Bool} (hx : AgreeUpTo N x x') (hy : AgreeUpTo N y y') :
    AgreeUpTo N (if b then x else y) (if b then x' else y') := by
  cases b
  · exact hy
  · exact hx

theorem AgreeUpTo.elemsLoop {N : Nat} {pv pv' : P Unit} (h : AgreeUpTo N pv pv') (hs : Shrinks pv) : ∀ fuel, AgreeUpTo N (elemsLoop pv fuel) (elemsLoop pv' fuel) := by
  intro fuel
  induction fuel with
  | zero => exact .refl _ _
  | succ fuel ih =>
    unfold Json.elemsLoop
    exact .bind h hs fun _ => .bind (.refl _ _) .skipWs fun _ => .bind (.refl _ _) .haveC fun _ => .ite ih (.refl _ _)

theorem AgreeUpTo.membersLoop {N : Nat} {pv pv' : P Unit} (h : AgreeUpTo N pv pv') (hs : Shrinks pv) :
    ∀ fuel, AgreeUpTo N (membersLoop pv fuel) (membersLoop pv' fuel) := by
  intro fuel
  induction fuel with
  | zero => exact .refl _ _
  | succ fuel ih =>
    unfold Json.membersLoop
    have hr : AgreeUpTo N (do
        skipWs
        expectC 58 .colon
        pv
        skipWs
        if ← haveC 44 then Json.membersLoop pv fuel else pure ()) (do
        skipWs
        expectC 58 .colon
        pv'
        skipWs
        if ← haveC 44 then Json.membersLoop pv' fuel else pure ()) :=
      .bind (.refl _ _) .skipWs fun _ => .bind (.refl _ _) .expectC fun _ => .bind h hs fun _ => .bind (.refl _ _) .skipWs fun _ =>
        .bind (.refl _ _) .haveC fun _ => .ite ih (.refl _ _)
    exact .bind (.refl _ _) (.parseString _) fun _ => .ite hr (.bind (.refl _ _) (.error _) fun _ => hr)

/-- after the opening bracket one bracket less is left -/
theorem agree_open {α : Type} {N : Nat} {c : UInt8} (hc : c = 91 ∨ c = 123) {f g : Bool → P α} (ht : ∀ M, M + 1 = N → AgreeUpTo M (f true) (g true))
    (hf : AgreeUpTo N (f false) (g false)) : AgreeUpTo N (haveC c >>= f) (haveC c >>= g) := by
  intro st hst
  rw [bind_apply, bind_apply]
  have h0 : c ≠ 0 := by rcases hc with rfl | rfl <;> decide
  rcases haveC_cases (c := c) h0 st with ⟨xs, h1, h2⟩ | ⟨hn, h2⟩
  · rw [h2]
    have : opens st.it = opens xs + 1 := by
      rw [h1]
      rcases hc with rfl | rfl <;> simp [opens]
    exact ht (N - 1) (by omega) _ (by simp only; omega)
  · rw [h2]
    exact hf st hst

theorem AgreeUpTo.parseArray {N : Nat} {pv pv' : P Unit} (h : ∀ M, M + 1 = N → AgreeUpTo M pv pv') (hs : Shrinks pv) :
    AgreeUpTo N (parseArray pv) (parseArray pv') := by
  unfold Json.parseArray
  refine .bind (.refl _ _) .skipWs fun _ => agree_open (.inl rfl) ?_ (.refl _ _)
  intro M hM
  have hl : AgreeUpTo M (fun st => Json.elemsLoop pv (st.it.length + 1) st) (fun st => Json.elemsLoop pv' (st.it.length + 1) st) :=
    fun st hst => AgreeUpTo.elemsLoop (h M hM) hs _ st hst
  have hsl : Shrinks (fun st => Json.elemsLoop pv (st.it.length + 1) st) := fun st => Shrinks.elemsLoop hs _ st
  exact .bind (.refl _ _) (.emit _) fun _ => .bind (.refl _ _) .skipWs fun _ => .bind (.refl _ _) .haveC fun _ => .ite (.refl _ _)
    (.bind hl hsl fun _ => .refl _ _)

theorem AgreeUpTo.parseObject {N : Nat} {pv pv' : P Unit} (h : ∀ M, M + 1 = N → AgreeUpTo M pv pv') (hs : Shrinks pv) :
    AgreeUpTo N (parseObject pv) (parseObject pv') := by
  unfold Json.parseObject
  refine .bind (.refl _ _) .skipWs fun _ => agree_open (.inr rfl) ?_ (.refl _ _)
  intro M hM
  have hl : AgreeUpTo M (fun st => Json.membersLoop pv (st.it.length + 1) st) (fun st => Json.membersLoop pv' (st.it.length + 1) st) :=
    fun st hst => AgreeUpTo.membersLoop (h M hM) hs _ st hst
  have hsl : Shrinks (fun st => Json.membersLoop pv (st.it.length + 1) st) := fun st => Shrinks.membersLoop hs _ st
  exact .bind (.refl _ _) (.emit _) fun _ => .bind (.refl _ _) .skipWs fun _ => .bind (.refl _ _) .haveC fun _ => .ite (.refl _ _)
    (.bind hl hsl fun _ => .refl _ _)

/-- more activations than opening brackets make no difference -/
theorem agree_parseValue (L : Layout) : ∀ N n, N < n → AgreeUpTo N (parseValue L n) (parseValue L (n + 1)) := by
  intro N
  induction N with
  | zero =>
    intro n hn
    obtain ⟨n, rfl⟩ : ∃ k, n = k + 1 := ⟨n - 1, by omega⟩
    have ho : AgreeUpTo 0 (parseObject (parseValue L n)) (parseObject (parseValue L (n + 1))) :=
      .parseObject (fun M hM => absurd hM (by omega)) (.parseValue L n)
    have ha : AgreeUpTo 0 (parseArray (parseValue L n)) (parseArray (parseValue L (n + 1))) :=
      .parseArray (fun M hM => absurd hM (by omega)) (.parseValue L n)
    rw [parseValue, parseValue]
    exact .bind ho (.parseObject (.parseValue L n)) fun _ => .ite (.refl _ _) (.bind ha (.parseArray (.parseValue L n)) fun _ => .refl _ _)
  | succ N ih =>
    intro n hn
    obtain ⟨n, rfl⟩ : ∃ k, n = k + 1 := ⟨n - 1, by omega⟩
    have hp : ∀ M, M + 1 = N + 1 → AgreeUpTo M (parseValue L n) (parseValue L (n + 1)) := by
      intro M hM
      obtain rfl : M = N := by omega
      exact ih n (by omega)
    rw [parseValue, parseValue]
    exact .bind (.parseObject hp (.parseValue L n)) (.parseObject (.parseValue L n)) fun _ => .ite (.refl _ _)
      (.bind (.parseArray hp (.parseValue L n)) (.parseArray (.parseValue L n)) fun _ => .refl _ _)

theorem parseValue_opens (L : Layout) (st : PState) (n : Nat) (h : opens st.it < n) (k : Nat) : parseValue L n st = parseValue L (n + k) st := by
  induction k with
  | zero => rfl
  | succ k ih => rw [ih]; exact agree_parseValue L (opens st.it) (n + k) (by omega) st (Nat.le_refl _)

/-! ### nested arrays -/

theorem nested_text : ∀ n, JText (nestedText n) (nested n) := by
  intro n
  induction n with
  | zero => exact .arrNil (w := []) (by simp [WS])
  | succ n ih =>
    have := JText.arr (Elems.one (w := []) (w' := []) (by simp [WS]) ih (by simp [WS]))
    have he : nestedText (n + 1) = 91 :: ([] ++ (nestedText n ++ []) ++ [93]) := by
      unfold nestedText
      rw [List.replicate_succ (n := n + 1) (a := (91 : UInt8)), List.replicate_succ' (n := n + 1) (a := (93 : UInt8))]
      simp
    rw [he]
    exact this

theorem nested_within : ∀ n m, Within m (nested n) ↔ n < m := by
  intro n
  induction n with
  | zero =>
    intro m
    cases m with
    | zero => simp [within_zero]
    | succ m => simp [nested, within_arr]
  | succ n ih =>
    intro m
    cases m with
    | zero => simp [within_zero]
    | succ m => simp [nested, within_arr, ih m]

/-- brackets that are never closed -/
theorem open_brackets (L : Layout) : ∀ n ev, parseValue L n ⟨List.replicate n 91, ev⟩ = .diverge := by
  intro n
  induction n with
  | zero => intro ev; rfl
  | succ n ih =>
    intro ev
    have hd : dropWs (91 :: List.replicate n (91 : UInt8)) = 91 :: List.replicate n 91 := rfl
    have hd' : dropWs (List.replicate n (91 : UInt8)) = List.replicate n 91 := by cases n <;> rfl
    have hm : haveC 93 ⟨List.replicate n 91, ev ++ [.beginArray]⟩ = .ok false ⟨List.replicate n 91, ev ++ [.beginArray]⟩ :=
      haveC_miss (by decide) (by cases n <;> simp [List.replicate_succ])
    rw [List.replicate_succ]
    refine parseValue_arr_div (by rw [hd]; rfl) ?_
    unfold parseArray
    simp [bind_apply, skipWs_apply, hd, hd', haveC_hit, emit_apply, hm, elemsLoop, ih]

theorem nested_boolFree : ∀ n, BoolFree (nested n) := by
  intro n
  induction n with
  | zero => exact .arr (by simp)
  | succ n ih => exact .arr (by simpa using ih)

end Json
end Eni
