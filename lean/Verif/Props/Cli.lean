import Verif.Spec.Cli
import Verif.Props.Reverse
/-!
# Properties of the command line tools: C53, C54, C66
-/
namespace Eni.Props
open Spec Base Json Cli

/-! ### C53 -/

/-- The members after further positional arguments. -/
def fill : Nat → Opt → List Bytes → Opt
  | 0, o, a :: r => fill 1 { o with lib := a } r
  | 1, o, a :: r => fill 2 { o with op := a } r
  | 2, o, a :: r => fill 3 { o with params := a } r
  | _, o, _ => o

theorem dashes (a : Bytes) (h : a.head? = some 45) : (a.length = 2 ∧ a[1]? = some 45) ↔ a = [45, 45] := by
  constructor
  · rintro ⟨h1, h2⟩
    match a, h1 with
    | [x, y], _ =>
      simp at h h2
      rw [h, h2]
  · rintro rfl
    simp

theorem parseLoop_eq (args : List Bytes) : ∀ (e : Bool) (k : Nat) (o : Opt), k ≤ 3 →
    (k + (if e then args else positional args).length ≤ 3 →
      parseLoop e k o args = (false, fill k o (if e then args else positional args), k + (if e then args else positional args).length)) ∧
    (3 < k + (if e then args else positional args).length → (parseLoop e k o args).1 = true) := by
  induction args with
  | nil =>
    intro e k o hk
    have : (if e then ([] : List Bytes) else positional []) = [] := by cases e <;> rfl
    rw [this]
    refine ⟨fun _ => ?_, fun h => by simp at h; omega⟩
    match k with
    | 0 | 1 | 2 | 3 => rfl
  | cons a r ih =>
    intro e k o hk
    -- a word that counts
    have pos : (a.head? = some 45 ∧ e = false → False) → (if e then a :: r else positional (a :: r)) = a :: (if e then r else positional r) →
        (k + (if e then a :: r else positional (a :: r)).length ≤ 3 → parseLoop e k o (a :: r) =
          (false, fill k o (if e then a :: r else positional (a :: r)), k + (if e then a :: r else positional (a :: r)).length)) ∧
        (3 < k + (if e then a :: r else positional (a :: r)).length → (parseLoop e k o (a :: r)).1 = true) := by
      intro hc hp
      rw [hp]
      match k, hk with
      | 0, _ =>
        obtain ⟨h1, h2⟩ := ih e 1 { o with lib := a } (by omega)
        simp only [parseLoop, if_neg hc, List.length_cons]
        exact ⟨fun h => by rw [h1 (by omega)]; simp only [fill]; congr 2; omega, fun h => h2 (by omega)⟩
      | 1, _ =>
        obtain ⟨h1, h2⟩ := ih e 2 { o with op := a } (by omega)
        simp only [parseLoop, if_neg hc, List.length_cons]
        exact ⟨fun h => by rw [h1 (by omega)]; simp only [fill]; congr 2; omega, fun h => h2 (by omega)⟩
      | 2, _ =>
        obtain ⟨h1, h2⟩ := ih e 3 { o with params := a } (by omega)
        simp only [parseLoop, if_neg hc, List.length_cons]
        exact ⟨fun h => by rw [h1 (by omega)]; simp only [fill]; congr 2; omega, fun h => h2 (by omega)⟩
      | 3, _ =>
        simp only [parseLoop, if_neg hc, List.length_cons]
        exact ⟨fun h => by omega, fun h => trivial⟩
    cases e with
    | true => exact pos (by simp) rfl
    | false =>
      by_cases hd : a.head? = some 45
      · by_cases hdd : a = [45, 45]
        · have hp : positional (a :: r) = r := by subst hdd; simp [positional]
          obtain ⟨h1, h2⟩ := ih true k o hk
          simp only [Bool.false_eq_true, if_false, if_true, hp] at *
          rw [parseLoop, if_pos ⟨hd, rfl⟩, if_pos ((dashes a hd).mpr hdd)]
          exact ⟨h1, h2⟩
        · have hp : positional (a :: r) = positional r := by simp [positional, hdd, hd]
          obtain ⟨h1, h2⟩ := ih false k o hk
          simp only [Bool.false_eq_true, if_false, hp] at *
          rw [parseLoop, if_pos ⟨hd, rfl⟩, if_neg (fun h => hdd ((dashes a hd).mp h))]
          exact ⟨h1, h2⟩
      · refine pos (fun h => hd h.1) ?_
        have hdd : a ≠ [45, 45] := by rintro rfl; simp at hd
        simp [positional, hdd, hd]

/-- C53: `parse` succeeds exactly with three positional arguments, and delivers them. -/
theorem C53_iff (args : List Bytes) (o : Opt) : Cli.parse args = some o ↔ positional args = [o.lib, o.op, o.params] := by
  obtain ⟨h1, h2⟩ := parseLoop_eq args false 0 ⟨[], [], []⟩ (by omega)
  simp only [Bool.false_eq_true, if_false, Nat.zero_add] at h1 h2
  unfold Cli.parse
  by_cases h : (positional args).length ≤ 3
  · rw [h1 h]
    dsimp only
    match hp : positional args, h with
    | [], _ => simp
    | [a], _ => simp
    | [a, b], _ => simp
    | [a, b, c], _ =>
      simp only [fill, List.length_cons, List.length_nil]
      obtain ⟨l, p, q⟩ := o
      simp
  · have := h2 (by omega)
    generalize parseLoop false 0 ⟨[], [], []⟩ args = x at this
    obtain ⟨x1, x2, x3⟩ := x
    simp only at this
    subst this
    constructor
    · intro h; cases h
    · intro e; rw [e] at h; simp at h

/-- `-v lib -- op -x` -/
example : positional [[45, 118], [108], [45, 45], [111], [45, 120]] = [[108], [111], [45, 120]] ∧
    Cli.parse [[45, 118], [108], [45, 45], [111], [45, 120]] = some ⟨[108], [111], [45, 120]⟩ := by decide

/-! ### C54 -/

theorem gasSymbol_eq (o : Bytes) : o ++ gasSuffix = gasSymbol o := by
  rw [gasSymbol, show gasSuffix = [95, 103, 97, 115] by decide +kernel]

theorem runSymbol_eq (o : Bytes) : o ++ runSuffix = runSymbol o := by
  rw [runSymbol, show runSuffix = [95, 114, 117, 110] by decide +kernel]

/-- C54 for `eni_gas`: the status in every case, and what is printed. -/
theorem C54_gas (S : Sys) (hS : S.deleteFrees = true) (args : List Bytes) :
    ((positional args).length ≠ 3 → ∃ e, gasMain S args = .ok ⟨[], e, 2⟩) ∧
    ∀ l o p, positional args = [l, o, p] →
      (S.dlopen l = none → gasMain S args = .ok ⟨[], [], 3⟩) ∧
      ∀ h, S.dlopen l = some h →
        (S.gasSym h (gasSymbol o) = none → gasMain S args = .ok ⟨[], [], 4⟩) ∧
        ∀ f, S.gasSym h (gasSymbol o) = some f →
          (f p = .ok none → gasMain S args = .ok ⟨[], [], 5⟩) ∧
          (∀ n t, f p = .ok (some n) → NatText t n → gasMain S args = .ok ⟨t ++ [10], [], 0⟩) ∧
          (∀ e, f p = .throw e → gasMain S args = .throw e) ∧ (∀ c, f p = .exit c → gasMain S args = .exit c) := by
  constructor
  · intro h
    have : Cli.parse args = none := by
      cases hp : Cli.parse args with
      | none => rfl
      | some o => rw [C53_iff] at hp; rw [hp] at h; simp at h
    exact ⟨_, by rw [gasMain, this]; rfl⟩
  · intro l o p hp
    have hpar : Cli.parse args = some ⟨l, o, p⟩ := (C53_iff args ⟨l, o, p⟩).mpr hp
    refine ⟨fun h => by rw [gasMain, hpar]; simp only [h]; rfl, fun h hh => ⟨fun hs => by rw [gasMain, hpar]; simp only [hh, gasSymbol_eq, hs]; rfl, fun f hf => ?_⟩⟩
    refine ⟨fun h => ?_, fun n t h ht => ?_, fun e h => ?_, fun c h => ?_⟩
    · rw [gasMain, hpar]; simp only [hh, gasSymbol_eq, hf, h, Res.ok_bind]; rfl
    · rw [natText_unique ht, gasMain, hpar]; simp only [hh, gasSymbol_eq, hf, h, Res.ok_bind, hS, if_true]; rfl
    · rw [gasMain, hpar]; simp only [hh, gasSymbol_eq, hf, h, Res.throw_bind]
    · rw [gasMain, hpar]; simp only [hh, gasSymbol_eq, hf, h, Res.exit_bind]

/-- a library whose operation needs 20 gas -/
example : gasMain ⟨Unit, fun _ => some (), fun _ _ => some fun _ => .ok (some 20), fun _ _ => none, true⟩ [[108], [111], [112]] =
    .ok ⟨[50, 48, 10], [], 0⟩ := by
  refine ((((C54_gas _ rfl _).2 [108] [111] [112] (by decide)).2 () rfl).2 _ rfl).2.1 20 [50, 48] rfl ⟨by decide, ?_, by decide, by decide⟩
  intro c hc
  simp only [List.mem_cons, List.not_mem_nil, or_false] at hc
  rcases hc with rfl | rfl <;> constructor <;> decide

/-- C54 for `eni_run`. -/
theorem C54_run (S : Sys) (args : List Bytes) :
    ((positional args).length ≠ 3 → ∃ e, runMain S args = .ok ⟨[], e, 1⟩) ∧
    ∀ l o p, positional args = [l, o, p] →
      (S.dlopen l = none → runMain S args = .ok ⟨[], [], 3⟩) ∧
      ∀ h, S.dlopen l = some h →
        (S.runSym h (runSymbol o) = none → runMain S args = .ok ⟨[], [], 4⟩) ∧
        ∀ f, S.runSym h (runSymbol o) = some f →
          (f p = .ok none → runMain S args = .ok ⟨[], [], 5⟩) ∧
          (∀ s, f p = .ok (some s) → runMain S args = .ok ⟨cstr s ++ [10], [], 0⟩) ∧
          (∀ e, f p = .throw e → runMain S args = .throw e) ∧ (∀ c, f p = .exit c → runMain S args = .exit c) := by
  constructor
  · intro h
    have : Cli.parse args = none := by
      cases hp : Cli.parse args with
      | none => rfl
      | some o => rw [C53_iff] at hp; rw [hp] at h; simp at h
    exact ⟨_, by rw [runMain, this]⟩
  · intro l o p hp
    have hpar : Cli.parse args = some ⟨l, o, p⟩ := (C53_iff args ⟨l, o, p⟩).mpr hp
    refine ⟨fun h => by rw [runMain, hpar]; simp only [h]; rfl, fun h hh => ⟨fun hs => by rw [runMain, hpar]; simp only [hh, runSymbol_eq, hs]; rfl, fun f hf => ?_⟩⟩
    refine ⟨fun h => ?_, fun n h => ?_, fun e h => ?_, fun c h => ?_⟩ <;>
      (rw [runMain, hpar]; simp only [hh, runSymbol_eq, hf, h, Res.ok_bind, Res.throw_bind, Res.exit_bind]) <;> rfl

/-- a library whose operation returns the text `ab` -/
example : runMain ⟨Unit, fun _ => some (), fun _ _ => none, fun _ _ => some fun _ => .ok (some [97, 98]), true⟩ [[108], [111], [112]] =
    .ok ⟨[97, 98, 10], [], 0⟩ := ((((C54_run _ _).2 [108] [111] [112] (by decide)).2 () rfl).2 _ rfl).2.1 [97, 98] rfl

/-- C54 is false of `eni_run`: whatever the system, a bad command line gives the status 1. -/
theorem C54_parse_error_false (S : Sys) (args : List Bytes) (h : (positional args).length ≠ 3) :
    ∃ d, runMain S args = .ok d ∧ d.status ≠ exitParseError := by
  obtain ⟨e, he⟩ := (C54_run S args).1 h
  exact ⟨_, he, by simp [exitParseError]⟩

/-- ... and, as the language defines it, of `eni_gas`: it releases with `delete` what the library allocated with `malloc`. -/
theorem C54_delete_false (S : Sys) (hS : S.deleteFrees = false) (l o p : Bytes) (args : List Bytes) (hp : positional args = [l, o, p]) (h : S.Lib)
    (hh : S.dlopen l = some h) (f : Entry Nat) (hf : S.gasSym h (gasSymbol o) = some f) (n : Nat) (hn : f p = .ok (some n)) :
    gasMain S args = .ub .wrongFree := by
  rw [gasMain, (C53_iff args ⟨l, o, p⟩).mpr hp]
  simp [hh, gasSymbol_eq, hf, hn, hS]

/-- C54, the part that holds: both tools print to standard output iff they end with status 0, provided that the functions of the library
do not end the process with status 0 themselves. -/
theorem C54_output_partial (S : Sys) (hg : ∀ h n f s, S.gasSym h n = some f → f s ≠ .exit 0) (hr : ∀ h n f s, S.runSym h n = some f → f s ≠ .exit 0)
    (args : List Bytes) (out : Bytes) (status : Nat) (h : Seen (gasMain S args) out status ∨ Seen (runMain S args) out status) :
    out ≠ [] ↔ status = 0 := by
  rcases h with h | h
  · unfold gasMain at h
    cases hp : Cli.parse args with
    | none => rw [hp] at h; cases h; simp [exitParseError]
    | some o =>
      rw [hp] at h
      dsimp only at h
      cases hl : S.dlopen o.lib with
      | none => rw [hl] at h; cases h; simp [exitLoadError]
      | some l =>
        rw [hl] at h
        dsimp only at h
        cases hf : S.gasSym l (o.op ++ gasSuffix) with
        | none => rw [hf] at h; cases h; simp [exitSymError]
        | some f =>
          rw [hf] at h
          dsimp only at h
          cases hc : f o.params with
          | ok q =>
            rw [hc, Res.ok_bind] at h
            cases q with
            | none => cases h; simp [exitRunError]
            | some n =>
              dsimp only at h
              split at h
              · cases h; simp [exitSuccess]
              · cases h
          | throw e => rw [hc] at h; cases h; simp
          | exit c =>
            rw [hc] at h
            cases h
            have := hg _ _ _ o.params hf
            rw [hc] at this
            simpa using fun e : status = 0 => this (by rw [e])
          | ub u => rw [hc] at h; cases h
          | diverge => rw [hc] at h; cases h
  · unfold runMain at h
    cases hp : Cli.parse args with
    | none => rw [hp] at h; cases h; simp [exitParseError]
    | some o =>
      rw [hp] at h
      dsimp only at h
      cases hl : S.dlopen o.lib with
      | none => rw [hl] at h; cases h; simp [exitLoadError]
      | some l =>
        rw [hl] at h
        dsimp only at h
        cases hf : S.runSym l (o.op ++ runSuffix) with
        | none => rw [hf] at h; cases h; simp [exitSymError]
        | some f =>
          rw [hf] at h
          dsimp only at h
          cases hc : f o.params with
          | ok q =>
            rw [hc, Res.ok_bind] at h
            cases q with
            | none => cases h; simp [exitRunError]
            | some n => cases h; simp [exitSuccess]
          | throw e => rw [hc] at h; cases h; simp
          | exit c =>
            rw [hc] at h
            cases h
            have := hr _ _ _ o.params hf
            rw [hc] at this
            simpa using fun e : status = 0 => this (by rw [e])
          | ub u => rw [hc] at h; cases h
          | diverge => rw [hc] at h; cases h

/-- the hypotheses of `C54_output_partial` and both outcomes -/
example : ∃ S : Sys, (∀ h n f s, S.gasSym h n = some f → f s ≠ .exit 0) ∧ (∀ h n f s, S.runSym h n = some f → f s ≠ .exit 0) ∧
    Seen (gasMain S [[108], [111], [112]]) [55, 10] 0 ∧ ∃ st, st ≠ 0 ∧ Seen (gasMain S [[108]]) [] st := by
  refine ⟨⟨Unit, fun _ => some (), fun _ _ => some fun _ => .ok (some 7), fun _ _ => some fun _ => .ok (some [97]), true⟩, ?_, ?_, ?_, ?_⟩
  · intro h n f s hf; cases hf; simp
  · intro h n f s hf; cases hf; simp
  · have : gasMain (⟨Unit, fun _ => some (), fun _ _ => some fun _ => .ok (some 7), fun _ _ => some fun _ => .ok (some [97]), true⟩ : Sys) [[108], [111], [112]] =
        .ok ⟨[55, 10], [], 0⟩ := by decide +kernel
    rw [this]
    exact .done (d := ⟨[55, 10], [], 0⟩)
  · refine ⟨exitParseError, by decide, ?_⟩
    exact .done (d := ⟨[], help gasName gasDesc, exitParseError⟩)

/-! ### C66 -/

/-- A system with one library, whose operation `name` is given by `H`. -/
def oneLib {S : Type} (lib name : Bytes) (H : Hooks S) (L : Layout) : Sys where
  Lib := Unit
  dlopen := fun l => if l = lib then some () else none
  gasSym := fun _ n => if n = gasSymbol name then some (gasEntry H L) else none
  runSym := fun _ n => if n = runSymbol name then some (runEntry H L) else none
  deleteFrees := true

/-- C66: `eni_run lib reverse '["s"]'` prints the reversed string as JSON and a line feed, `eni_gas` the gas, for every string and however the
positional arguments are spread over the command line. -/
theorem C66_reverse (L : Layout) (lib name s : Bytes) (args : List Bytes) (ha : positional args = [lib, name, Value.print (.arr [.str s])]) :
    runMain (oneLib lib name Reverse.op L) args = .ok ⟨Value.print (.arr [.str s.reverse]) ++ [10], [], 0⟩ ∧
    ∀ t, NatText t (10 * s.length) → gasMain (oneLib lib name Reverse.op L) args = .ok ⟨t ++ [10], [], 0⟩ := by
  obtain ⟨ht, h0⟩ := print_strs [s]
  have h := C42_reverse L (w := []) (r := []) s [] (by simp [WS]) ht (by simpa using h0)
  simp only [List.nil_append, List.append_nil, List.map_cons, List.map_nil] at h
  have hc : cstr (Value.print (.arr [.str s.reverse])) = Value.print (.arr [.str s.reverse]) := cstr_of_notMem (print_strs [s.reverse]).2
  constructor
  · have := ((((C54_run (oneLib lib name Reverse.op L) args).2 lib name _ ha).2 () (by simp [oneLib])).2 (runEntry Reverse.op L) (by simp [oneLib])).2.1
      _ h.1
    rw [this, hc]
  · intro t ht
    exact ((((C54_gas (oneLib lib name Reverse.op L) rfl args).2 lib name _ ha).2 () (by simp [oneLib])).2 (gasEntry Reverse.op L) (by simp [oneLib])).2.1
      _ t (by rw [gasEntry, h.2]; rfl) ht

example : NatText [50, 48] 20 := by
  refine ⟨by decide, ?_, by decide, by decide⟩
  intro c hc
  simp only [List.mem_cons, List.not_mem_nil, or_false] at hc
  rcases hc with rfl | rfl <;> constructor <;> decide

end Eni.Props
