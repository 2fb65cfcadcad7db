import Verif.Proofs.OneDef
/-!
# C114: a rejected text is reported in every program

`Link.parse b u L s` is the declaration of a `Parser` in part `u` of a program built as `b`; `Json.parse` is the parser of C23 to C32.
-/
namespace Eni.Props
open Spec Link

/-- C114, texts that are accepted are accepted in every program, with the same value. -/
theorem C114_accepted (b : Build) (u : Nat) (L : Json.Layout) (s : Bytes) (v : Value) :
    Link.parse b u L s = .ok (.parser ⟨true, v⟩) ↔ Json.parse L s = .ok ⟨true, v⟩ := by
  rcases parse_build b u L s with h | ⟨r, ty, h1, h2, h3, _⟩
  · rw [h]
    constructor
    · intro h
      obtain ⟨r, hr, h⟩ := Res.bind_eq_ok.mp h
      cases h
      exact hr
    · intro h
      rw [h, Res.ok_bind]
  · rw [h1, h3]
    constructor
    · intro h; cases h
    · intro h; cases h; cases h2

/-- `1` in some program. -/
example (b : Build) (u : Nat) : Link.parse b u ⟨0, 0, 0⟩ [49] = .ok (.parser ⟨true, .int 1⟩) := (C114_accepted b u _ _ _).mpr rfl

/-- C114, exactly: every text ends as it should for the parsers declared in a part of the program, iff whatever may throw on their behalf comes from the part
that the handler comes from. -/
theorem C114_exact_partial (b : Build) (u : Nat) (L : Json.Layout) :
    Consistent b u ↔ ∀ s, Link.parse b u L s = (Json.parse L s >>= fun r => .ok (.parser r)) := by
  constructor
  · intro hc s
    rcases parse_build b u L s with h | ⟨_, ty, _, _, _, hf, hne⟩
    · exact h
    · exact absurd (hc _ _ hf frame_ctor) hne
  · intro h p q hp hq
    refine Decidable.byContradiction fun hne => ?_
    rw [ctor_unique hq] at hne
    obtain ⟨s, hs⟩ := some_text b u L hp hne
    rw [h s] at hs
    obtain ⟨r, _, hs⟩ := Res.bind_eq_ok.mp hs
    cases hs

/-- C114, programs in which a single part includes the parser. -/
theorem C114_one_part_partial (b : Build) (u : Nat) (hl : ∀ g, b.link g = u) : Consistent b u := by
  have : ∀ p f, Frame b u p f → p = u := by
    intro p f h
    induction h with
    | caller => rfl
    | call _ _ ih => unfold Build.part; rw [hl, ih]; split <;> rfl
  intro p q hp hq
  rw [this p _ hp, this q _ hq]

example : Consistent ⟨fun _ => 7, fun _ f _ => f = .value⟩ 7 := C114_one_part_partial _ _ fun _ => rfl

/-- C114, programs of any number of parts in which no call is expanded in place and the constructor and `parse_error` have been taken from the same part. -/
theorem C114_linked_partial (b : Build) (u : Nat) (hi : ∀ p f g, b.inl p f g = false) (h : b.link .error = b.link .ctor) : Consistent b u := by
  have : ∀ p f, Frame b u p f → f ≠ .caller → p = b.link f := by
    intro p f h hf
    cases h with
    | caller => exact absurd rfl hf
    | call _ _ => unfold Build.part; rw [hi]; rfl
  intro p q hp hq
  rw [this p _ hp nofun, this q _ hq nofun, h]

example : Consistent ⟨fun g => if g = .value then 1 else 0, fun _ _ _ => false⟩ 5 := C114_linked_partial _ _ (fun _ _ _ => rfl) rfl

/-- The library `eni` is part 0, the module of the json example is part 1. The constructor is expanded where `eni_json.cpp` declares a parser; all other calls go
to the definitions in the library. -/
def twoParts : Build := ⟨fun _ => 0, fun p f g => decide (p = 1 ∧ f = .caller ∧ g = .ctor)⟩

/-- C114 is false of the code: in `twoParts` the parsers of the library are as they should be, but in the module every rejected text, `x` for example,
makes an exception leave the constructor, which nobody catches. -/
theorem C114_escape_false (L : Json.Layout) :
    Consistent twoParts 0 ∧ ¬ Consistent twoParts 1 ∧ (∀ s v, Json.parse L s = .ok ⟨false, v⟩ → Link.parse twoParts 1 L s = .ok (.escaped 0)) ∧
    Json.parse L [120] = .ok ⟨false, .undef⟩ := by
  have h0 : ∀ p f, Frame twoParts 0 p f → p = 0 := by
    intro p f h
    induction h with
    | caller => rfl
    | call _ _ ih => rw [ih]; rfl
  have h1 : ∀ p f, Frame twoParts 1 p f → p = if f = .caller ∨ f = .ctor then 1 else 0 := by
    intro p f h
    induction h with
    | caller => rfl
    | call _ hc ih => rw [ih]; cases hc <;> rfl
  have hrej : ∀ s v, Json.parse L s = .ok ⟨false, v⟩ → Link.parse twoParts 1 L s = .ok (.escaped 0) := by
    intro s v h
    obtain ⟨ty, hf, _, h'⟩ := parse_rejected twoParts 1 L s h
    obtain rfl : ty = 0 := h1 _ _ hf
    exact h' (by decide)
  have hx : Json.parse L [120] = .ok ⟨false, .undef⟩ := rfl
  refine ⟨fun p q hp hq => by rw [h0 _ _ hp, h0 _ _ hq], fun hc => ?_, hrej, hx⟩
  have := (C114_exact_partial twoParts 1 L).mp hc [120]
  rw [hrej _ _ hx, hx] at this
  cases this

end Eni.Props
