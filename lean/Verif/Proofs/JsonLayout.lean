import Verif.Proofs.JsonComplete
/-!
# Influence of the memory layout on parsing
-/
namespace Eni
namespace Json
open Spec

set_option linter.unusedSimpArgs false

/-- Same outcome, or the first one is an error and the text contains a `t` or `f`. -/
def Agree {α : Type} (st : PState) (a b : PRes α) : Prop :=
  a = b ∨ ((116 ∈ st.it ∨ 102 ∈ st.it) ∧ ∃ e st', a = .err e st')

/-- The remaining text is a suffix. -/
def Shr {α : Type} (st : PState) (a : PRes α) : Prop := ∀ x st', a = .ok x st' → st'.it <:+ st.it

theorem Agree.bind {α β : Type} {x y : P α} {f g : α → P β} {st : PState} (h : Agree st (x st) (y st)) (hs : Shr st (x st))
    (hf : ∀ a st1, x st = .ok a st1 → st1.it.length ≤ st.it.length → Agree st1 (f a st1) (g a st1)) :
    Agree st ((x >>= f) st) ((y >>= g) st) := by
  rcases h with h | ⟨h, e, st', he⟩
  · rw [bind_apply, bind_apply, ← h]
    cases hx : x st with
    | ok a st1 =>
      have hsuf := hs a st1 hx
      rcases hf a st1 hx hsuf.length_le with h1 | ⟨h1, e, st', he⟩
      · exact .inl h1
      · refine .inr ⟨?_, e, st', he⟩
        rcases h1 with h1 | h1
        · exact .inl (hsuf.subset h1)
        · exact .inr (hsuf.subset h1)
    | err e st' => exact .inl rfl
    | ub u => exact .inl rfl
    | diverge => exact .inl rfl
  · right
    refine ⟨h, e, st', ?_⟩
    rw [bind_apply, he]

theorem Agree.refl {α : Type} (st : PState) (a : PRes α) : Agree st a a := .inl rfl

theorem Shr.bind {α β : Type} {x : P α} {f : α → P β} {st : PState} (h : Shr st (x st))
    (hf : ∀ a st1, x st = .ok a st1 → st1.it.length ≤ st.it.length → Shr st1 (f a st1)) : Shr st ((x >>= f) st) := by
  intro b st' hb
  rw [bind_apply] at hb
  cases hx : x st with
  | ok a st1 =>
    rw [hx] at hb
    have h1 := h a st1 hx
    exact (hf a st1 hx h1.length_le b st' hb).trans h1
  | err e st' => rw [hx] at hb; cases hb
  | ub u => rw [hx] at hb; cases hb
  | diverge => rw [hx] at hb; cases hb

theorem Shr.pure {α : Type} (a : α) (st : PState) : Shr st ((Pure.pure a : P α) st) := by
  intro x st' h; cases h; exact List.suffix_rfl

theorem Shr.skipWs (st : PState) : Shr st (Json.skipWs st) := by
  intro x st' h
  cases h
  obtain ⟨w, _, he, _⟩ := dropWs_spec st.it
  exact ⟨w, he.symm⟩

theorem Shr.emit (e : Ev) (st : PState) : Shr st (Json.emit e st) := by
  intro x st' h; cases h; exact List.suffix_rfl

theorem Shr.error {α : Type} (e : PErr) (st : PState) : Shr st ((Json.error e : P α) st) := by
  intro x st' h; cases h

theorem Shr.haveC {c : UInt8} (hc : c ≠ 0) (st : PState) : Shr st (Json.haveC c st) := by
  intro x st' h
  rcases haveC_cases hc st with ⟨xs, h1, h2⟩ | ⟨_, h2⟩
  · rw [h2] at h; cases h; rw [h1]; exact List.suffix_cons _ _
  · rw [h2] at h; cases h; exact List.suffix_rfl

theorem Shr.expectC {c : UInt8} (hc : c ≠ 0) (e : PErr) (st : PState) : Shr st (Json.expectC c e st) := by
  unfold Json.expectC
  refine Shr.bind (Shr.haveC hc st) ?_
  intro a st1 _ _
  cases a
  · exact Shr.error e st1
  · exact Shr.pure () st1

theorem Shr.parseString (k : Bool) (st : PState) : Shr st (Json.parseString k st) := by
  intro x st' h
  rcases parseString_post k st with ⟨w, b, s, r, h1, _, hit, _⟩ | ⟨h1, _⟩ | ⟨er, r, h1⟩
  · rw [h1] at h; cases h
    exact ⟨w ++ 34 :: (b ++ [34]), by rw [hit]; simp⟩
  · rw [h1] at h; cases h
    obtain ⟨w, _, he, _⟩ := dropWs_spec st.it
    exact ⟨w, he.symm⟩
  · rw [h1] at h; cases h

theorem VPost.shr {st : PState} {a : PRes Unit} (h : VPost st a) : Shr st a := by
  intro x st' ha
  subst ha
  obtain ⟨w, t, _, _, _, _, _, he, _⟩ := h
  exact ⟨w ++ t, by rw [he]; simp⟩

theorem BPost.shr {st : PState} {a : PRes Bool} (h : BPost st a) : Shr st a := by
  intro x st' ha
  subst ha
  cases x with
  | true =>
    obtain ⟨w, t, _, _, _, _, _, he, _⟩ := h
    exact ⟨w ++ t, by rw [he]; simp⟩
  | false =>
    have h : st' = ⟨dropWs st.it, st.ev⟩ := h
    subst h
    obtain ⟨w, _, he, _⟩ := dropWs_spec st.it
    exact ⟨w, he.symm⟩

theorem haveLit_agree {b a b' a' : Nat} {pat : Bytes} (hp : ∀ c ∈ pat, c ≠ 0) (hg : a' + pat.length ≤ b') (st : PState) :
    haveLit b a pat st = haveLit b' a' pat st ∨ haveLit b a pat st = .ok false st := by
  rcases haveLit_post b a pat hp st with ⟨r, h1, h2⟩ | h1
  · left
    obtain ⟨it, ev⟩ := st
    simp only at h2
    subst h2
    rw [h1, haveLit_complete b' a' pat r ev hg]
  · exact .inr h1

theorem parseBoolean_agree (L : Layout) {G : Layout} (hG : G.Good) (st : PState) : Agree st (parseBoolean L st) (parseBoolean G st) := by
  unfold parseBoolean
  refine Agree.bind (Agree.refl _ _) (Shr.skipWs st) ?_
  intro _ st1 _ _
  have lit : ∀ (b a b' a' : Nat) (pat : Bytes) (e : PErr) (v : Bool) (it : Bytes) (ev : List Ev) (c : UInt8), (∀ c ∈ pat, c ≠ 0) →
      a' + pat.length ≤ b' → (c = 116 ∨ c = 102) →
      Agree ⟨c :: it, ev⟩ ((do expectLit b a pat e; emit (.boolean v); return true : P Bool) ⟨it, ev⟩)
        ((do expectLit b' a' pat e; emit (.boolean v); return true : P Bool) ⟨it, ev⟩) := by
    intro b a b' a' pat e v it ev c hp hg hc
    rcases haveLit_agree (b := b) (a := a) hp hg ⟨it, ev⟩ with h | h
    · left; simp only [expectLit, bind_apply, h]
    · right
      refine ⟨?_, e, ⟨it, ev⟩, ?_⟩
      · rcases hc with rfl | rfl <;> simp
      · simp [expectLit, bind_apply, h, error_apply]
  rcases haveC_cases (c := 116) (by decide) st1 with ⟨xs, h1, h2⟩ | ⟨_, h2⟩
  · rw [bind_apply, bind_apply, h2]
    simp only [if_true]
    have := lit L.bufEnd L.rue G.bufEnd G.rue [114, 117, 101] .true_ true xs st1.ev 116 (by decide) hG.1 (.inl rfl)
    rw [← h1] at this
    exact this
  · rw [bind_apply, bind_apply, h2]
    simp only [Bool.false_eq_true, if_false]
    rcases haveC_cases (c := 102) (by decide) st1 with ⟨xs, h1, h2⟩ | ⟨_, h2⟩
    · rw [bind_apply, bind_apply, h2]
      simp only [if_true]
      have := lit L.bufEnd L.alse G.bufEnd G.alse [97, 108, 115, 101] .false_ false xs st1.ev 102 (by decide) hG.2 (.inr rfl)
      rw [← h1] at this
      exact this
    · rw [bind_apply, bind_apply, h2]
      exact Agree.refl _ _

section
variable {p q : P Unit} {N : Nat} (ha : ∀ st : PState, st.it.length ≤ N → Agree st (p st) (q st))
  (hs : ∀ st : PState, st.it.length ≤ N → Shr st (p st))
include ha hs

theorem elemsLoop_agree : ∀ (fuel : Nat) (st : PState), st.it.length ≤ N →
    Agree st (elemsLoop p fuel st) (elemsLoop q fuel st) := by
  intro fuel
  induction fuel with
  | zero => intro st _; exact Agree.refl _ _
  | succ fuel ih =>
    intro st hN
    unfold elemsLoop
    refine Agree.bind (ha st hN) (hs st hN) ?_
    intro _ st1 _ h1
    refine Agree.bind (Agree.refl _ _) (Shr.skipWs st1) ?_
    intro _ st2 _ h2
    refine Agree.bind (Agree.refl _ _) (Shr.haveC (by decide) st2) ?_
    intro b st3 _ h3
    cases b
    · exact Agree.refl _ _
    · exact ih st3 (by omega)

theorem membersLoop_agree : ∀ (fuel : Nat) (st : PState), st.it.length ≤ N →
    Agree st (membersLoop p fuel st) (membersLoop q fuel st) := by
  intro fuel
  induction fuel with
  | zero => intro st _; exact Agree.refl _ _
  | succ fuel ih =>
    intro st hN
    unfold membersLoop
    have rest : ∀ st1 : PState, st1.it.length ≤ N →
        Agree st1 ((do skipWs; expectC 58 .colon; p; skipWs; if ← haveC 44 then membersLoop p fuel else pure () : P Unit) st1)
          ((do skipWs; expectC 58 .colon; q; skipWs; if ← haveC 44 then membersLoop q fuel else pure () : P Unit) st1) := by
      intro st1 h1
      refine Agree.bind (Agree.refl _ _) (Shr.skipWs st1) ?_
      intro _ st2 _ h2
      refine Agree.bind (Agree.refl _ _) (Shr.expectC (by decide) _ st2) ?_
      intro _ st3 _ h3
      refine Agree.bind (ha st3 (by omega)) (hs st3 (by omega)) ?_
      intro _ st4 _ h4
      refine Agree.bind (Agree.refl _ _) (Shr.skipWs st4) ?_
      intro _ st5 _ h5
      refine Agree.bind (Agree.refl _ _) (Shr.haveC (by decide) st5) ?_
      intro b st6 _ h6
      cases b
      · exact Agree.refl _ _
      · exact ih st6 (by omega)
    refine Agree.bind (Agree.refl _ _) (Shr.parseString true st) ?_
    intro b st1 _ h1
    cases b
    · left; simp [bind_apply, error_apply]
    · exact rest st1 (by omega)

theorem parseArray_agree (st : PState) (hN : st.it.length ≤ N + 1) : Agree st (parseArray p st) (parseArray q st) := by
  unfold parseArray
  refine Agree.bind (Agree.refl _ _) (Shr.skipWs st) ?_
  intro _ st1 _ h1
  rcases haveC_cases (c := 91) (by decide) st1 with ⟨xs, h2, h3⟩ | ⟨_, h3⟩
  · refine Agree.bind (Agree.refl _ _) (Shr.haveC (by decide) st1) ?_
    intro b st2 hb _
    rw [h3] at hb
    cases hb
    rw [if_pos rfl, if_pos rfl]
    have hl : xs.length ≤ N := by rw [h2] at h1; simp only [List.length_cons] at h1; omega
    refine Agree.bind (Agree.refl _ _) (Shr.emit _ _) ?_
    intro _ st3 he h4
    refine Agree.bind (Agree.refl _ _) (Shr.skipWs st3) ?_
    intro _ st4 _ h5
    refine Agree.bind (Agree.refl _ _) (Shr.haveC (by decide) st4) ?_
    intro b st5 _ h6
    simp only at h4
    cases b
    · simp only [Bool.false_eq_true, if_false]
      have hag := elemsLoop_agree ha hs (st5.it.length + 1) st5 (by omega)
      rcases hag with h | ⟨h, e, st', he⟩
      · left
        rw [bind_apply, bind_apply, h]
      · right
        exact ⟨h, e, st', by rw [bind_apply, he]⟩
    · exact Agree.refl _ _
  · left
    rw [bind_apply, bind_apply, h3]
    rfl

theorem parseObject_agree (st : PState) (hN : st.it.length ≤ N + 1) : Agree st (parseObject p st) (parseObject q st) := by
  unfold parseObject
  refine Agree.bind (Agree.refl _ _) (Shr.skipWs st) ?_
  intro _ st1 _ h1
  rcases haveC_cases (c := 123) (by decide) st1 with ⟨xs, h2, h3⟩ | ⟨_, h3⟩
  · refine Agree.bind (Agree.refl _ _) (Shr.haveC (by decide) st1) ?_
    intro b st2 hb _
    rw [h3] at hb
    cases hb
    rw [if_pos rfl, if_pos rfl]
    have hl : xs.length ≤ N := by rw [h2] at h1; simp only [List.length_cons] at h1; omega
    refine Agree.bind (Agree.refl _ _) (Shr.emit _ _) ?_
    intro _ st3 he h4
    refine Agree.bind (Agree.refl _ _) (Shr.skipWs st3) ?_
    intro _ st4 _ h5
    refine Agree.bind (Agree.refl _ _) (Shr.haveC (by decide) st4) ?_
    intro b st5 _ h6
    simp only at h4
    cases b
    · simp only [Bool.false_eq_true, if_false]
      have hag := membersLoop_agree ha hs (st5.it.length + 1) st5 (by omega)
      rcases hag with h | ⟨h, e, st', he⟩
      · left
        rw [bind_apply, bind_apply, h]
      · right
        exact ⟨h, e, st', by rw [bind_apply, he]⟩
    · exact Agree.refl _ _
  · left
    rw [bind_apply, bind_apply, h3]
    rfl

end

/-- whatever the layout: the outcome with a good layout, or an error -/
theorem parseValue_agree (L : Layout) {G : Layout} (hG : G.Good) : ∀ (n : Nat) (st : PState), st.it.length < n →
    Agree st (parseValue L n st) (parseValue G n st) := by
  intro n
  induction n with
  | zero => intro st h; omega
  | succ n ih =>
    intro st hn
    have key : ∀ st1 : PState, st1.it.length ≤ st.it.length →
        (Agree st1 (parseObject (parseValue L n) st1) (parseObject (parseValue G n) st1) ∧
        Shr st1 (parseObject (parseValue L n) st1)) ∧
        (Agree st1 (parseArray (parseValue L n) st1) (parseArray (parseValue G n) st1) ∧
        Shr st1 (parseArray (parseValue L n) st1)) := by
      intro st1 h1
      cases n with
      | zero =>
        have h0 : st1.it = [] := List.eq_nil_of_length_eq_zero (by omega)
        obtain ⟨it, ev⟩ := st1
        simp only at h0
        subst h0
        refine ⟨⟨.inl rfl, ?_⟩, .inl rfl, ?_⟩
        · intro x st' h
          have : parseObject (parseValue L 0) ⟨[], ev⟩ = .ok false ⟨[], ev⟩ := rfl
          rw [this] at h; cases h; exact List.suffix_rfl
        · intro x st' h
          have : parseArray (parseValue L 0) ⟨[], ev⟩ = .ok false ⟨[], ev⟩ := rfl
          rw [this] at h; cases h; exact List.suffix_rfl
      | succ N =>
        have hp : ∀ s : PState, s.it.length ≤ N → VPost s (parseValue L (N + 1) s) := fun s hs => parseValue_post L _ s (by omega)
        have ha : ∀ s : PState, s.it.length ≤ N → Agree s (parseValue L (N + 1) s) (parseValue G (N + 1) s) := fun s hs => ih s (by omega)
        exact ⟨⟨parseObject_agree ha (fun s h => (hp s h).shr) st1 (by omega), (parseObject_post hp st1 (by omega)).shr⟩,
          parseArray_agree ha (fun s h => (hp s h).shr) st1 (by omega), (parseArray_post hp st1 (by omega)).shr⟩
    unfold parseValue
    refine Agree.bind (key st (by omega)).1.1 (key st (by omega)).1.2 ?_
    intro b st1 _ h1
    cases b
    swap
    · exact Agree.refl _ _
    simp only [Bool.false_eq_true, if_false]
    refine Agree.bind (key st1 (by omega)).2.1 (key st1 (by omega)).2.2 ?_
    intro b st2 _ h2
    cases b
    swap
    · exact Agree.refl _ _
    simp only [Bool.false_eq_true, if_false]
    refine Agree.bind (Agree.refl _ _) (Shr.parseString _ _) ?_
    intro b st3 _ h3
    cases b
    swap
    · exact Agree.refl _ _
    simp only [Bool.false_eq_true, if_false]
    refine Agree.bind (parseBoolean_agree L hG st3) (parseBoolean_bpost L st3).shr ?_
    intro b st4 _ h4
    exact Agree.refl _ _

end Json
end Eni
