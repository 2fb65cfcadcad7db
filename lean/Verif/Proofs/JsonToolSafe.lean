import Verif.Proofs.JsonTool
import Verif.Spec.KeyText
import Verif.Proofs.JsonParse
/-!
# The json operation on arbitrary tokens

Helper lemmas of Props/JsonToolSafe: what `parseString` does with every text, and the loop of `objectTokens` as a loop over the result of
`arrayTokens`.
-/
namespace Eni
namespace Json
open Spec

set_option linter.unusedSimpArgs false

/-! ### the kind of the root -/

/-- the root is a string exactly if the value is, and the same one -/
def SameStr (x : Value) (j : JV) : Prop := (∀ s, j = .str s → x = .str s) ∧ ((∀ s, j ≠ .str s) → ∀ s, x ≠ .str s)

theorem kind_of {es : List Ev} {j : JV} (h : EvOf es j) (hl : es.length ≤ 1073643498) : ∃ x, cbRun .init es = .ok ⟨[], x⟩ ∧ SameStr x j := by
  cases h with
  | boolean => exact ⟨_, rfl, by simp, by simp⟩
  | number _ => exact ⟨_, rfl, by simp, by simp⟩
  | str => exact ⟨_, rfl, by simp, fun h => absurd rfl (h _)⟩
  | arr h =>
    simp only [List.length_cons, List.length_append, List.length_nil] at hl
    obtain ⟨xs, _, _, _, hr⟩ := evsOf_delivers h (by omega)
    refine ⟨.arr xs, ?_, by simp, by simp⟩
    simp only [cbRun, cbStep, Res.ok_bind, CbState.init]
    rw [cbRun_append, hr, Res.ok_bind, cbRun_single]
    rfl
  | obj h =>
    simp only [List.length_cons, List.length_append, List.length_nil] at hl
    obtain ⟨hm, hr⟩ := msOf_run h (by omega)
    have hnew : (SMap.new 8 : SMap Value).ne = 0 := by rw [new8_counted.ne_eq, new8_entries]; rfl
    obtain ⟨m', key', h⟩ := hr (SMap.new 8) [] new8_counted (by omega)
    refine ⟨.obj (SMap.copy m'), ?_, by simp, by simp⟩
    simp only [cbRun, cbStep, Res.ok_bind, CbState.init]
    rw [cbRun_append, h, Res.ok_bind, cbRun_single]
    rfl

theorem parse_kind (L : Layout) (s : Bytes) (hlen : s.length ≤ 1073643498) :
    (∃ w t j r x, parse L s = .ok ⟨true, x⟩ ∧ s = w ++ (t ++ r) ∧ WS w ∧ JText t j ∧ SameStr x j) ∨
    (parse L s = .ok ⟨false, .undef⟩ ∧ ∀ u st, parseValue L (s.length + 1) ⟨s, []⟩ ≠ .ok u st) := by
  have h := parseValue_post L (s.length + 1) ⟨s, []⟩ (by simp)
  rcases parse_post L s hlen with ⟨_, _, _, _, x', h0, _⟩ | h0
  · left
    unfold parse at h0 ⊢
    cases hp : parseValue L (s.length + 1) ⟨s, []⟩ with
    | ub u => rw [hp] at h; exact absurd h id
    | diverge => rw [hp] at h; exact absurd h id
    | ok u st =>
      rw [hp] at h h0
      obtain ⟨w, t, j, es, hw, ht, hes, hit, hev, hl⟩ := h
      simp only [List.nil_append] at hit hev
      have : es.length ≤ 1073643498 := by
        have := congrArg List.length hit
        simp only [List.length_append] at this
        omega
      obtain ⟨x, hrun, hx⟩ := kind_of hes this
      refine ⟨w, t, j, st.it, x, ?_, hit, hw, ht, hx⟩
      simp only
      rw [hev, hrun]
      rfl
    | err e st =>
      rw [hp] at h h0
      obtain ⟨es, hpart, hev, hl⟩ := h
      simp only [List.nil_append] at hev hl
      obtain ⟨pushed, hrun⟩ := partOf_run hpart (by omega)
      simp only [hev, hrun, Res.ok_bind, Res.ok.injEq, Parsed.mk.injEq] at h0
      exact absurd h0.1 (by simp)
  · right
    refine ⟨h0, fun u st hp => ?_⟩
    rw [hp] at h
    obtain ⟨w, t, j, es, hw, ht, hes, hit, hev, hl⟩ := h
    simp only [List.nil_append] at hit hev
    have : es.length ≤ 1073643498 := by
      have := congrArg List.length hit
      simp only [List.length_append] at this
      omega
    obtain ⟨x, hrun, hx⟩ := kind_of hes this
    unfold parse at h0
    simp only [hp, hev, hrun, Res.ok_bind, Res.ok.injEq, Parsed.mk.injEq] at h0
    exact absurd h0.1 (by simp)

/-! ### numbers followed by anything -/

theorem parseNumber_accepts {t : Bytes} {z : Int} (h : IntText t z) (r : Bytes) (ev : List Ev) : ∃ st, parseNumber ⟨t ++ r, ev⟩ = .ok true st := by
  have main : ∀ (neg : Bool) (u : Bytes) (n : Nat), NatText u n → t = (if neg then [45] else []) ++ u → ∃ st, parseNumber ⟨t ++ r, ev⟩ = .ok true st := by
    intro neg u n hu ht
    obtain ⟨c, cs, hc, hcd⟩ := natText_head hu
    have hd : dropWs (t ++ r) = t ++ r := by
      apply dropWs_append (w := []) (by simp [WS])
      intro x hx
      cases neg
      · rw [ht, hc] at hx
        simp at hx; subst hx
        exact digit_not_ws hcd
      · rw [ht] at hx
        simp at hx; subst hx
        rfl
    have h45 : haveC 45 ⟨t ++ r, ev⟩ = .ok neg ⟨u ++ r, ev⟩ := by
      cases neg
      · rw [ht]
        simp only [Bool.false_eq_true, if_false, List.nil_append]
        exact haveC_miss (by decide) (by rw [hc]; simpa using digit_ne_minus hcd)
      · rw [ht]
        simp only [if_true, List.cons_append, List.nil_append]
        exact haveC_hit _ _ _
    unfold parseNumber
    rw [bind_apply, skipWs_apply]
    simp only
    rw [hd]
    rcases natText_cases hu with rfl | ⟨x, ds, rfl, hx, hds⟩
    · simp only [List.singleton_append] at h45
      simp [bind_apply, h45, haveC_hit, emit_apply, pure_apply]
    · have hx48 : haveC 48 ⟨x :: (ds ++ r), ev⟩ = .ok false ⟨x :: (ds ++ r), ev⟩ :=
        haveC_miss (by decide) (by simpa using ((isPosDigit_iff x).mp hx).2)
      rw [List.cons_append] at h45
      simp [bind_apply, h45, hx48, parseIntPart, hx, parseDigits, emit_apply, pure_apply]
  cases h with
  | nonneg h => exact main false _ _ h rfl
  | neg h => exact main true _ _ h rfl

theorem intText_head {t : Bytes} {z : Int} (h : IntText t z) : ∃ c cs, t = c :: cs ∧ (Digit c ∨ c = 45) := by
  cases h with
  | nonneg h =>
    obtain ⟨c, cs, hc, hd⟩ := natText_head h
    exact ⟨c, cs, hc, .inl hd⟩
  | neg h => exact ⟨_, _, rfl, .inr rfl⟩

/-- a text that begins with a JSON text is accepted, whatever follows -/
theorem begins_accepted {L : Layout} (hL : L.Good) {w t r : Bytes} {j : JV} (hw : WS w) (ht : JText t j) :
    ∃ u st, parseValue L ((w ++ (t ++ r)).length + 1) ⟨w ++ (t ++ r), []⟩ = .ok u st := by
  by_cases hj : ∃ z, j = .int z
  · obtain ⟨z, rfl⟩ := hj
    cases ht with
    | int h =>
      obtain ⟨c, cs, e, hc⟩ := intText_head h
      obtain ⟨st, hs⟩ := parseNumber_accepts h r []
      have hws : isWs c = false := by
        rcases hc with hc | rfl
        · exact digit_not_ws hc
        · rfl
      have hd : dropWs (w ++ (t ++ r)) = t ++ r := by rw [e]; exact dropWs_cons hw hws
      exact ⟨(), st, parseValue_num (c := c) (by rw [hd, e]; rfl) hc (by rw [hd]; exact hs)⟩
  · obtain ⟨es, _, h⟩ := accepts L ht w r [] ((w ++ (t ++ r)).length + 1) hw (by simp; omega) (fun h => absurd h hj) (.inl hL)
    exact ⟨_, _, h⟩

/-- the first character tells strings from other values -/
theorem jtext_quote {t : Bytes} {j : JV} (h : JText t j) : t.head? = some 34 ↔ ∃ s, j = .str s := by
  cases h with
  | true_ => simp
  | false_ => simp
  | int h =>
    obtain ⟨c, cs, rfl, hc⟩ := intText_head h
    simp only [List.head?_cons, Option.some.injEq, reduceCtorEq, exists_false, iff_false]
    rintro rfl
    rcases hc with hc | hc
    · exact absurd hc.1 (by decide)
    · exact absurd hc (by decide)
  | str _ => simp
  | arrNil _ => simp
  | arr _ => simp
  | objNil _ => simp
  | obj _ => simp

theorem begins_kind {w w' t t' r r' : Bytes} {j j' : JV} (hw : WS w) (hw' : WS w') (h : JText t j) (h' : JText t' j') (he : w ++ (t ++ r) = w' ++ (t' ++ r')) :
    (∃ s, j = .str s) ↔ ∃ s, j' = .str s := by
  rw [← jtext_quote h, ← jtext_quote h']
  have hd := congrArg dropWs he
  obtain ⟨c, cs, rfl, hc, _⟩ := jtext_head h
  obtain ⟨c', cs', rfl, hc', _⟩ := jtext_head h'
  rw [List.cons_append, List.cons_append, dropWs_cons hw hc, dropWs_cons hw' hc'] at hd
  simp only [List.head?_cons, Option.some.injEq]
  rw [(List.cons.inj hd).1]

end Json

namespace JsonTool
open Spec

/-! ### the loop of objectTokens -/

/-- `result[getkey()] = value` for every pair -/
def bindAll (E : Env) (data : Bytes) : List (Bytes × Tok) → List (Tok × Tok) → Res (List (Bytes × Tok))
  | m, [] => .ok m
  | m, (k, v) :: ps => do
    let name ← getKey E data k
    bindAll E data ((name, v) :: m) ps

theorem objectLoop_eq (E : Env) (data : Bytes) (before : Int) (ts : List Tok) : ∀ (after : Int) (m : List (Bytes × Tok)),
    objectLoop E data before after none m ts = bindAll E data m (pairs (arrayLoop before after ts)) ∧
    ∀ k, objectLoop E data before after (some k) m ts = bindAll E data m (pairs (k :: arrayLoop before after ts)) := by
  induction ts with
  | nil => intro after m; exact ⟨rfl, fun k => rfl⟩
  | cons t ts ih =>
    intro after m
    by_cases h1 : t.start < after
    · simp only [objectLoop, arrayLoop, if_pos h1]
      exact ih after m
    · by_cases h2 : t.start > before
      · simp only [objectLoop, arrayLoop, if_neg h1, if_pos h2]
        exact ⟨rfl, fun k => rfl⟩
      · simp only [objectLoop, arrayLoop, if_neg h1, if_neg h2]
        refine ⟨(ih t.stop m).2 t, fun k => ?_⟩
        rw [pairs, bindAll]
        cases getKey E data k with
        | ok name => exact (ih t.stop _).1
        | throw e => rfl
        | ub u => rfl
        | diverge => rfl
        | exit c => rfl

theorem objectTokens_eq (E : Env) (data : Bytes) (a b : Int) {cs : List Tok} (h : arrayTokens E data a b = .ok cs) :
    objectTokens E data a b = bindAll E data [] (pairs cs) := by
  unfold arrayTokens internalParse at h
  unfold objectTokens internalParse
  cases hj : E.jsmn data a b with
  | none => rw [hj] at h; cases h
  | some ts =>
    rw [hj] at h
    cases ts with
    | nil => cases h
    | cons t0 ts =>
      simp only [Res.ok_bind, Res.ok.injEq] at h ⊢
      rw [(objectLoop_eq E data t0.stop ts t0.start []).1, h]

theorem bindAll_ok (E : Env) (data : Bytes) (name : Tok → Bytes) (ps : List (Tok × Tok)) (h : ∀ p ∈ ps, getKey E data p.1 = .ok (name p.1)) :
    ∀ m, bindAll E data m ps = .ok ((ps.map fun p => (name p.1, p.2)).reverse ++ m) := by
  induction ps with
  | nil => intro m; rfl
  | cons p ps ih =>
    intro m
    obtain ⟨k, v⟩ := p
    rw [bindAll, h (k, v) List.mem_cons_self, Res.ok_bind, ih (fun p hp => h p (List.mem_cons_of_mem _ hp))]
    simp

theorem bindAll_ub (E : Env) (data : Bytes) (ps : List (Tok × Tok)) (hd : ∀ p ∈ ps, (∃ s, getKey E data p.1 = .ok s) ∨ ∃ u, getKey E data p.1 = .ub u)
    (h : ∃ p ∈ ps, ∃ u, getKey E data p.1 = .ub u) : ∀ m, ∃ u, bindAll E data m ps = .ub u := by
  induction ps with
  | nil => obtain ⟨p, hp, _⟩ := h; cases hp
  | cons p ps ih =>
    intro m
    obtain ⟨k, v⟩ := p
    rcases hd (k, v) List.mem_cons_self with ⟨s, e⟩ | ⟨u, e⟩
    · simp only at e
      rw [bindAll, e, Res.ok_bind]
      refine ih (fun p hp => hd p (List.mem_cons_of_mem _ hp)) ?_ _
      obtain ⟨p, hp, u, hu⟩ := h
      rcases List.mem_cons.mp hp with rfl | hp
      · rw [e] at hu; cases hu
      · exact ⟨p, hp, u, hu⟩
    · simp only at e
      rw [bindAll, e]
      exact ⟨u, rfl⟩

theorem pairs_at (cs : List Tok) (p : Tok × Tok) (pre post : List (Tok × Tok)) (h : pairs cs = pre ++ p :: post) :
    cs[2 * pre.length]? = some p.1 ∧ cs[2 * pre.length + 1]? = some p.2 := by
  induction pre generalizing cs with
  | nil =>
    match cs, h with
    | k :: v :: ts, h =>
      simp only [pairs, List.nil_append, List.cons.injEq] at h
      simp [← h.1]
    | [], h => simp [pairs] at h
    | [_], h => simp [pairs] at h
  | cons q pre ih =>
    match cs, h with
    | k :: v :: ts, h =>
      simp only [pairs, List.cons_append, List.cons.injEq] at h
      have := ih ts h.2
      rw [List.length_cons, show 2 * (pre.length + 1) = 2 * pre.length + 1 + 1 by omega]
      simpa using this
    | [], h => simp [pairs] at h
    | [_], h => simp [pairs] at h

end JsonTool
end Eni
