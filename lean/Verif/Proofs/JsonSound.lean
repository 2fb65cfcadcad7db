import Verif.Proofs.JsonLex
import Verif.Proofs.JsonCallbacks
/-!
# Every outcome of `parse_value`

The parser always stops with a value of the grammar or with an error, having told the callbacks the value, or the beginning of one.
-/
namespace Eni
namespace Json
open Spec

set_option linter.unusedSimpArgs false

/-- a value has been read between `st` and `st'` -/
def VOk (st st' : PState) : Prop :=
  ∃ w t j es, WS w ∧ JText t j ∧ EvOf es j ∧ st.it = w ++ (t ++ st'.it) ∧ st'.ev = st.ev ++ es ∧ es.length ≤ t.length

/-- an error was met inside a value -/
def VErr (st st' : PState) : Prop := ∃ es, PartOf es ∧ st'.ev = st.ev ++ es ∧ es.length ≤ st.it.length

def VPost (st : PState) : PRes Unit → Prop
  | .ok _ st' => VOk st st'
  | .err _ st' => VErr st st'
  | .ub _ => False
  | .diverge => False

def BPost (st : PState) : PRes Bool → Prop
  | .ok true st' => VOk st st'
  | .ok false st' => st' = ⟨dropWs st.it, st.ev⟩
  | .err _ st' => VErr st st'
  | .ub _ => False
  | .diverge => False

theorem VErr.same {st st' : PState} (h : st'.ev = st.ev) : VErr st st' := ⟨[], .nil, by simp [h], by simp⟩

theorem Elems.ws {w t : Bytes} {js : List JV} (hw : WS w) (h : Elems t js) : Elems (w ++ t) js := by
  cases h with
  | one h1 h2 h3 => rw [← List.append_assoc]; exact .one (WS.append hw h1) h2 h3
  | cons h1 h2 h3 h4 => rw [← List.append_assoc]; exact .cons (WS.append hw h1) h2 h3 h4

theorem Members.ws {w t : Bytes} {ms : List (Bytes × JV)} (hw : WS w) (h : Members t ms) : Members (w ++ t) ms := by
  cases h with
  | one h1 h2 h3 h4 h5 h6 => rw [← List.append_assoc]; exact .one (WS.append hw h1) h2 h3 h4 h5 h6
  | cons h1 h2 h3 h4 h5 h6 h7 => rw [← List.append_assoc]; exact .cons (WS.append hw h1) h2 h3 h4 h5 h6 h7

theorem VOk.ws {st st1 st' : PState} {w : Bytes} (hw : WS w) (h1 : st.it = w ++ st1.it) (h2 : st1.ev = st.ev) (h : VOk st1 st') :
    VOk st st' := by
  obtain ⟨w', t, j, es, a, b, c, d, e, f⟩ := h
  exact ⟨w ++ w', t, j, es, WS.append hw a, b, c, by rw [h1, d, List.append_assoc], by rw [e, h2], f⟩

theorem VErr.ws {st st1 st' : PState} {w : Bytes} (h1 : st.it = w ++ st1.it) (h2 : st1.ev = st.ev) (h : VErr st1 st') : VErr st st' := by
  obtain ⟨es, a, b, c⟩ := h
  refine ⟨es, a, by rw [b, h2], ?_⟩
  rw [h1, List.length_append]; omega

/-- every outcome of the element loop -/
theorem elemsLoop_post {pv : P Unit} {N : Nat} (hpv : ∀ st : PState, st.it.length ≤ N → VPost st (pv st)) : ∀ (fuel : Nat) (st : PState),
    st.it.length < fuel → st.it.length ≤ N →
    (∃ st' t js es, elemsLoop pv fuel st = .ok () st' ∧ Elems t js ∧ EvsOf es js ∧ st.it = t ++ st'.it ∧ st'.ev = st.ev ++ es ∧
      es.length ≤ t.length) ∨
    (∃ er st' es js p, elemsLoop pv fuel st = .err er st' ∧ EvsOf es js ∧ PartOf p ∧ st'.ev = st.ev ++ (es ++ p) ∧
      (es ++ p).length ≤ st.it.length) := by
  intro fuel
  induction fuel with
  | zero => intro st h; omega
  | succ fuel ih =>
    intro st hf hN
    unfold elemsLoop
    have h1 := hpv st hN
    cases hp : pv st with
    | ub u => rw [hp] at h1; exact absurd h1 id
    | diverge => rw [hp] at h1; exact absurd h1 id
    | err er st' =>
      right
      rw [hp] at h1
      obtain ⟨es, ha, hb, hc⟩ := h1
      exact ⟨er, st', [], [], es, by simp [bind_apply, hp], .nil, ha, by simpa using hb, by simpa using hc⟩
    | ok u st1 =>
      rw [hp] at h1
      obtain ⟨w, t, j, es, hw, ht, hes, hit, hev, hlen⟩ := h1
      have hpos := evOf_nonempty hes
      obtain ⟨w', hw', hit', _⟩ := dropWs_spec st1.it
      rcases haveC_cases (c := 44) (by decide) ⟨dropWs st1.it, st1.ev⟩ with ⟨xs, h2, h3⟩ | ⟨_, h3⟩
      · simp only at h2 h3
        have hl : st.it.length = w.length + (t.length + (w'.length + (1 + xs.length))) := by
          rw [hit, hit', h2]; simp only [List.length_append, List.length_cons]; omega
        rcases ih ⟨xs, st1.ev⟩ (by simp only; omega) (by simp only; omega) with
          ⟨st', t', js, es', h4, h5, h6, h7, h8, h9⟩ | ⟨er, st', es', js, p, h4, h5, h6, h7, h8⟩
        · left
          simp only at h7
          refine ⟨st', _, j :: js, es ++ es', ?_, .cons hw ht hw' h5, .cons hes h6, ?_, ?_, ?_⟩
          · simp [bind_apply, hp, skipWs_apply, h3, h4]
          · rw [hit, hit', h2, h7]; simp
          · rw [h8, hev]; simp
          · simp only [List.length_append, List.length_cons]; omega
        · right
          simp only at h8
          refine ⟨er, st', es ++ es', j :: js, p, ?_, .cons hes h5, h6, ?_, ?_⟩
          · simp [bind_apply, hp, skipWs_apply, h3, h4]
          · rw [h7, hev]; simp
          · simp only [List.length_append] at h8 ⊢; omega
      · left
        refine ⟨⟨dropWs st1.it, st1.ev⟩, _, [j], es ++ [], ?_, .one hw ht hw', .cons hes .nil, ?_, ?_, ?_⟩
        · simp [bind_apply, hp, skipWs_apply, h3, pure_apply]
        · simp only; rw [hit]; conv => lhs; rw [hit']
          simp
        · simp [hev]
        · simp only [List.length_append, List.length_nil]; omega

/-- every outcome of the member loop -/
theorem membersLoop_post {pv : P Unit} {N : Nat} (hpv : ∀ st : PState, st.it.length ≤ N → VPost st (pv st)) : ∀ (fuel : Nat) (st : PState),
    st.it.length < fuel → st.it.length ≤ N →
    (∃ st' t ms es, membersLoop pv fuel st = .ok () st' ∧ Members t ms ∧ MsOf es ms ∧ st.it = t ++ st'.it ∧ st'.ev = st.ev ++ es ∧
      es.length ≤ t.length) ∨
    (∃ er st' es ms, membersLoop pv fuel st = .err er st' ∧ MsOf es ms ∧ st'.ev = st.ev ++ es ∧
      es.length ≤ st.it.length) ∨
    (∃ er st' es ms k p, membersLoop pv fuel st = .err er st' ∧ MsOf es ms ∧ PartOf p ∧ st'.ev = st.ev ++ (es ++ .string k true :: p) ∧
      (es ++ .string k true :: p).length ≤ st.it.length) := by
  intro fuel
  induction fuel with
  | zero => intro st h; omega
  | succ fuel ih =>
    intro st hf hN
    unfold membersLoop
    rcases parseString_post true st with ⟨w, b, k, r, hs, hw, hit, hb⟩ | ⟨hs, _⟩ | ⟨er, r, hs⟩
    · -- the key has been read
      have hl0 : st.it.length = w.length + (2 + (b.length + r.length)) := by
        rw [hit]; simp only [List.length_append, List.length_cons]; omega
      obtain ⟨w1, hw1, hit1, _⟩ := dropWs_spec r
      rcases haveC_cases (c := 58) (by decide) ⟨dropWs r, st.ev ++ [.string k true]⟩ with ⟨r2, h2, h3⟩ | ⟨_, h3⟩
      · simp only at h2 h3
        have hl1 : r.length = w1.length + (1 + r2.length) := by
          rw [hit1, h2]; simp only [List.length_append, List.length_cons]; omega
        have h1 := hpv ⟨r2, st.ev ++ [.string k true]⟩ (by simp only; omega)
        cases hp : pv ⟨r2, st.ev ++ [.string k true]⟩ with
        | ub u => rw [hp] at h1; exact absurd h1 id
        | diverge => rw [hp] at h1; exact absurd h1 id
        | err er st' =>
          right; right
          rw [hp] at h1
          obtain ⟨es, ha, hb, hc⟩ := h1
          simp only at hb hc
          refine ⟨er, st', [], [], k, es, ?_, .nil, ha, by rw [hb]; simp, ?_⟩
          · simp [bind_apply, hs, pure_apply, skipWs_apply, expectC, h3, hp]
          · simp only [List.nil_append, List.length_cons]; omega
        | ok u st1 =>
          rw [hp] at h1
          obtain ⟨w2, t, j, es, hw2, ht, hes, hit2, hev, hlen⟩ := h1
          simp only at hit2 hev
          have hpos := evOf_nonempty hes
          obtain ⟨w3, hw3, hit3, _⟩ := dropWs_spec st1.it
          rcases haveC_cases (c := 44) (by decide) ⟨dropWs st1.it, st1.ev⟩ with ⟨xs, h4, h5⟩ | ⟨_, h5⟩
          · simp only at h4 h5
            have hl2 : r2.length = w2.length + (t.length + (w3.length + (1 + xs.length))) := by
              rw [hit2, hit3, h4]; simp only [List.length_append, List.length_cons]; omega
            have hstep : membersLoop pv (fuel + 1) st = membersLoop pv fuel ⟨xs, st1.ev⟩ := by
              conv => lhs; unfold membersLoop
              simp [bind_apply, hs, pure_apply, skipWs_apply, expectC, h3, hp, h5]
            conv at hstep => lhs; unfold membersLoop
            rw [hstep]
            rcases ih ⟨xs, st1.ev⟩ (by simp only; omega) (by simp only; omega) with
              ⟨st', t', ms, es', g4, g5, g6, g7, g8, g9⟩ | ⟨er, st', es', ms, g4, g5, g7, g8⟩ |
              ⟨er, st', es', ms, k', p, g4, g5, g6, g7, g8⟩
            · left
              simp only at g7 g8
              refine ⟨st', _, (k, j) :: ms, .string k true :: (es ++ es'), g4, .cons hw hb hw1 hw2 ht hw3 g5, .cons hes g6, ?_, ?_, ?_⟩
              · rw [hit, hit1, h2, hit2, hit3, h4, g7]; simp
              · rw [g8, hev]; simp
              · simp only [List.length_append, List.length_cons]; omega
            · right; left
              simp only at g7 g8
              refine ⟨er, st', .string k true :: (es ++ es'), (k, j) :: ms, g4, .cons hes g5, ?_, ?_⟩
              · rw [g7, hev]; simp
              · simp only [List.length_append, List.length_cons] at g8 ⊢; omega
            · right; right
              simp only at g7 g8
              refine ⟨er, st', .string k true :: (es ++ es'), (k, j) :: ms, k', p, g4, .cons hes g5, g6, ?_, ?_⟩
              · rw [g7, hev]; simp
              · simp only [List.length_append, List.length_cons] at g8 ⊢; omega
          · left
            refine ⟨⟨dropWs st1.it, st1.ev⟩, _, [(k, j)], .string k true :: (es ++ []), ?_, .one hw hb hw1 hw2 ht hw3, .cons hes .nil,
              ?_, ?_, ?_⟩
            · simp [bind_apply, hs, pure_apply, skipWs_apply, expectC, h3, hp, h5]
            · rw [hit, hit1, h2, hit2]
              conv => lhs; rw [hit3]
              simp
            · simp [hev]
            · simp only [List.length_append, List.length_cons, List.length_nil]; omega
      · right; right
        refine ⟨.colon, ⟨dropWs r, st.ev ++ [.string k true]⟩, [], [], k, [], ?_, .nil, .nil, by simp, ?_⟩
        · simp [bind_apply, hs, pure_apply, skipWs_apply, expectC, h3, error_apply]
        · simp only [List.nil_append, List.length_cons, List.length_nil]; omega
    · right; left
      exact ⟨.key, ⟨dropWs st.it, st.ev⟩, [], [], by simp [bind_apply, hs, error_apply], .nil, by simp, by simp⟩
    · right; left
      exact ⟨er, ⟨r, st.ev⟩, [], [], by simp [bind_apply, hs, error_apply], .nil, by simp, by simp⟩

theorem parseArray_post {pv : P Unit} {N : Nat} (hpv : ∀ st : PState, st.it.length ≤ N → VPost st (pv st)) (st : PState)
    (hN : st.it.length ≤ N + 1) : BPost st (parseArray pv st) := by
  obtain ⟨w, hw, hit, _⟩ := dropWs_spec st.it
  rcases haveC_cases (c := 91) (by decide) ⟨dropWs st.it, st.ev⟩ with ⟨r, h1, h2⟩ | ⟨_, h2⟩
  · simp only at h1 h2
    obtain ⟨w0, hw0, hit0, _⟩ := dropWs_spec r
    have hl : st.it.length = w.length + (1 + r.length) := by
      rw [hit, h1]; simp only [List.length_append, List.length_cons]; omega
    have hl0 : r.length = w0.length + (dropWs r).length := by
      conv => lhs; rw [hit0]
      simp only [List.length_append]
    rcases haveC_cases (c := 93) (by decide) ⟨dropWs r, st.ev ++ [.beginArray]⟩ with ⟨r1, h3, h4⟩ | ⟨_, h4⟩
    · simp only at h3 h4
      have : parseArray pv st = .ok true ⟨r1, st.ev ++ [.beginArray, .endArray]⟩ := by
        simp [parseArray, bind_apply, skipWs_apply, h2, emit_apply, h4, pure_apply]
      rw [this]
      refine ⟨w, _, .arr [], [.beginArray, .endArray], hw, .arrNil hw0, ?_, ?_, rfl, by simp⟩
      · exact .arr .nil
      · rw [hit, h1, hit0, h3]; simp
    · rcases elemsLoop_post hpv ((dropWs r).length + 1) ⟨dropWs r, st.ev ++ [.beginArray]⟩ (by simp) (by simp only; omega) with
        ⟨st', t, js, es, g1, g2, g3, g4, g5, g6⟩ | ⟨er, st', es, js, p, g1, g2, g3, g4, g5⟩
      · simp only at g4 g5
        rcases haveC_cases (c := 93) (by decide) st' with ⟨r1, h5, h6⟩ | ⟨_, h6⟩
        · have : parseArray pv st = .ok true ⟨r1, st'.ev ++ [.endArray]⟩ := by
            simp [parseArray, bind_apply, skipWs_apply, h2, emit_apply, h4, pure_apply, g1, expectC, h6]
          rw [this]
          refine ⟨w, _, .arr js, _, hw, .arr (Elems.ws hw0 g2), .arr g3, ?_, ?_, ?_⟩
          · rw [hit, h1, hit0, g4, h5]; simp
          · simp only; rw [g5]; simp
          · simp only [List.length_append, List.length_cons]; omega
        · have : parseArray pv st = .err .arrayEnd st' := by
            simp [parseArray, bind_apply, skipWs_apply, h2, emit_apply, h4, pure_apply, g1, expectC, h6, error_apply]
          rw [this]
          refine ⟨.beginArray :: (es ++ []), .arr g3 .nil, by rw [g5]; simp, ?_⟩
          have : (dropWs r).length = t.length + st'.it.length := by rw [g4]; simp
          simp only [List.length_append, List.length_cons, List.length_nil]; omega
      · have : parseArray pv st = .err er st' := by
          simp [parseArray, bind_apply, skipWs_apply, h2, emit_apply, h4, pure_apply, g1]
        rw [this]
        refine ⟨.beginArray :: (es ++ p), .arr g2 g3, by rw [g4]; simp, ?_⟩
        simp only [List.length_cons] at g5 ⊢; omega
  · have : parseArray pv st = .ok false ⟨dropWs st.it, st.ev⟩ := by
      simp [parseArray, bind_apply, skipWs_apply, h2, pure_apply]
    rw [this]
    rfl

theorem parseObject_post {pv : P Unit} {N : Nat} (hpv : ∀ st : PState, st.it.length ≤ N → VPost st (pv st)) (st : PState)
    (hN : st.it.length ≤ N + 1) : BPost st (parseObject pv st) := by
  obtain ⟨w, hw, hit, _⟩ := dropWs_spec st.it
  rcases haveC_cases (c := 123) (by decide) ⟨dropWs st.it, st.ev⟩ with ⟨r, h1, h2⟩ | ⟨_, h2⟩
  · simp only at h1 h2
    obtain ⟨w0, hw0, hit0, _⟩ := dropWs_spec r
    have hl : st.it.length = w.length + (1 + r.length) := by
      rw [hit, h1]; simp only [List.length_append, List.length_cons]; omega
    have hl0 : r.length = w0.length + (dropWs r).length := by
      conv => lhs; rw [hit0]
      simp only [List.length_append]
    rcases haveC_cases (c := 125) (by decide) ⟨dropWs r, st.ev ++ [.beginObject]⟩ with ⟨r1, h3, h4⟩ | ⟨_, h4⟩
    · simp only at h3 h4
      have : parseObject pv st = .ok true ⟨r1, st.ev ++ [.beginObject, .endObject]⟩ := by
        simp [parseObject, bind_apply, skipWs_apply, h2, emit_apply, h4, pure_apply]
      rw [this]
      refine ⟨w, _, .obj [], [.beginObject, .endObject], hw, .objNil hw0, ?_, ?_, rfl, by simp⟩
      · exact .obj .nil
      · rw [hit, h1, hit0, h3]; simp
    · rcases membersLoop_post hpv ((dropWs r).length + 1) ⟨dropWs r, st.ev ++ [.beginObject]⟩ (by simp) (by simp only; omega) with
        ⟨st', t, ms, es, g1, g2, g3, g4, g5, g6⟩ | ⟨er, st', es, ms, g1, g2, g4, g5⟩ | ⟨er, st', es, ms, k, p, g1, g2, g3, g4, g5⟩
      · simp only at g4 g5
        rcases haveC_cases (c := 125) (by decide) st' with ⟨r1, h5, h6⟩ | ⟨_, h6⟩
        · have : parseObject pv st = .ok true ⟨r1, st'.ev ++ [.endObject]⟩ := by
            simp [parseObject, bind_apply, skipWs_apply, h2, emit_apply, h4, pure_apply, g1, expectC, h6]
          rw [this]
          refine ⟨w, _, .obj ms, _, hw, .obj (Members.ws hw0 g2), .obj g3, ?_, ?_, ?_⟩
          · rw [hit, h1, hit0, g4, h5]; simp
          · simp only; rw [g5]; simp
          · simp only [List.length_append, List.length_cons]; omega
        · have : parseObject pv st = .err .objectEnd st' := by
            simp [parseObject, bind_apply, skipWs_apply, h2, emit_apply, h4, pure_apply, g1, expectC, h6, error_apply]
          rw [this]
          refine ⟨.beginObject :: es, .obj g3, by rw [g5]; simp, ?_⟩
          have : (dropWs r).length = t.length + st'.it.length := by rw [g4]; simp
          simp only [List.length_cons]; omega
      · have : parseObject pv st = .err er st' := by
          simp [parseObject, bind_apply, skipWs_apply, h2, emit_apply, h4, pure_apply, g1]
        rw [this]
        refine ⟨.beginObject :: es, .obj g2, by rw [g4]; simp, ?_⟩
        simp only [List.length_cons] at g5 ⊢; omega
      · have : parseObject pv st = .err er st' := by
          simp [parseObject, bind_apply, skipWs_apply, h2, emit_apply, h4, pure_apply, g1]
        rw [this]
        refine ⟨.beginObject :: (es ++ .string k true :: p), .objKey g2 g3, by rw [g4]; simp, ?_⟩
        simp only [List.length_cons] at g5 ⊢; omega
  · have : parseObject pv st = .ok false ⟨dropWs st.it, st.ev⟩ := by
      simp [parseObject, bind_apply, skipWs_apply, h2, pure_apply]
    rw [this]
    rfl

theorem dropWs_dropWs (it : Bytes) : dropWs (dropWs it) = dropWs it := by
  obtain ⟨w, hw, hit, hc⟩ := dropWs_spec it
  exact dropWs_append (w := []) (by simp [WS]) hc

theorem parseString_bpost (st : PState) : BPost st (parseString false st) := by
  rcases parseString_post false st with ⟨w, b, s, r, h, hw, hit, hb⟩ | ⟨h, _⟩ | ⟨er, r, h⟩
  · rw [h]
    exact ⟨w, _, .str s, [.string s false], hw, .str hb, .str, by rw [hit]; simp, rfl, by simp⟩
  · rw [h]; rfl
  · rw [h]; exact VErr.same rfl

theorem parseBoolean_bpost (L : Layout) (st : PState) : BPost st (parseBoolean L st) := by
  rcases parseBoolean_post L st with ⟨w, r, h, hw, hit⟩ | ⟨w, r, h, hw, hit⟩ | h | ⟨er, r, h⟩
  · rw [h]; exact ⟨w, _, _, [.boolean true], hw, .true_, .boolean, hit, rfl, by simp⟩
  · rw [h]; exact ⟨w, _, _, [.boolean false], hw, .false_, .boolean, hit, rfl, by simp⟩
  · rw [h]; rfl
  · rw [h]; exact VErr.same rfl

theorem IntText.length_pos {t : Bytes} {z : Int} (h : IntText t z) : 0 < t.length := by
  cases h with
  | nonneg h => exact List.length_pos_of_ne_nil h.1
  | neg h => simp

theorem parseNumber_bpost (st : PState) : BPost st (parseNumber st) := by
  rcases parseNumber_post st with ⟨w, t, z, r, h, hw, hit, hz⟩ | h | ⟨er, r, h⟩
  · rw [h]; exact ⟨w, t, _, [.number t], hw, .int hz, .number hz, hit, rfl, by have := IntText.length_pos hz; simp; omega⟩
  · rw [h]; rfl
  · rw [h]; exact VErr.same rfl

/-- one alternative of `parse_value` -/
theorem orElse_post {st0 st : PState} {p : P Bool} {q : P Unit} {w : Bytes} (hw : WS w) (h1 : st0.it = w ++ st.it) (h2 : st.ev = st0.ev)
    (hst : dropWs st.it = dropWs st0.it) (hp : BPost st (p st)) (hq : VPost st0 (q ⟨dropWs st0.it, st0.ev⟩)) :
    VPost st0 ((do if ← p then return () else q) st) := by
  rw [bind_apply]
  cases h : p st with
  | ub u => rw [h] at hp; exact hp
  | diverge => rw [h] at hp; exact hp
  | err er st' => rw [h] at hp; exact VErr.ws h1 h2 hp
  | ok b st' =>
    rw [h] at hp
    cases b with
    | true => exact VOk.ws hw h1 h2 hp
    | false =>
      have : st' = ⟨dropWs st.it, st.ev⟩ := hp
      subst this
      rw [hst, h2]
      exact hq

/-- every outcome of `parse_value` -/
theorem parseValue_post (L : Layout) : ∀ (fuel : Nat) (st : PState), st.it.length < fuel → VPost st (parseValue L fuel st) := by
  intro fuel
  induction fuel with
  | zero => intro st h; omega
  | succ fuel ih =>
    intro st hlen
    obtain ⟨w, hw, hit, _⟩ := dropWs_spec st.it
    have hlen' : st.it.length = w.length + (dropWs st.it).length := by
      conv => lhs; rw [hit]
      simp
    have hpost : fuel = 0 ∨ ∃ N, fuel = N + 1 := by cases fuel <;> simp
    have hdd := dropWs_dropWs st.it
    have harr : BPost ⟨dropWs st.it, st.ev⟩ (parseArray (parseValue L fuel) ⟨dropWs st.it, st.ev⟩) ∧
        BPost st (parseObject (parseValue L fuel) st) := by
      rcases hpost with rfl | ⟨N, rfl⟩
      · have h0 : st.it = [] := List.eq_nil_of_length_eq_zero (by omega)
        have h1 : st = ⟨[], st.ev⟩ := by rw [← h0]
        rw [h1]
        generalize st.ev = ev0
        constructor
        · have : parseArray (parseValue L 0) ⟨dropWs [], ev0⟩ = .ok false ⟨[], ev0⟩ := rfl
          rw [this]; rfl
        · have : parseObject (parseValue L 0) ⟨[], ev0⟩ = .ok false ⟨[], ev0⟩ := rfl
          rw [this]; rfl
      · have hpv : ∀ s : PState, s.it.length ≤ N → VPost s (parseValue L (N + 1) s) := fun s hs => ih s (by omega)
        exact ⟨parseArray_post hpv _ (by simp only; omega), parseObject_post hpv _ (by omega)⟩
    unfold parseValue
    refine orElse_post (w := []) (by simp [WS]) rfl rfl rfl harr.2 ?_
    refine orElse_post hw hit rfl hdd harr.1 ?_
    refine orElse_post hw hit rfl hdd (parseString_bpost _) ?_
    refine orElse_post hw hit rfl hdd (parseBoolean_bpost L _) ?_
    refine orElse_post hw hit rfl hdd (parseNumber_bpost _) ?_
    exact VErr.same rfl

end Json
end Eni
