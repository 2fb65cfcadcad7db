import Verif.Model.ConsensusReport
import Verif.Proofs.JsonPrint
import Verif.Proofs.JsonParse
/-!
# Reports of the consensus script: lines can be recovered from the text

Helper lemmas, no property statements.
-/
namespace Eni.Consensus
open Spec Json

/-- text of a sequence of lines -/
def unlines (ls : List (List Char)) : List Char := ls.flatMap fun l => l ++ ['\n']

theorem split_line {a b x y : List Char} (ha : '\n' ∉ a) (hb : '\n' ∉ b) (h : a ++ '\n' :: x = b ++ '\n' :: y) : a = b ∧ x = y := by
  induction a generalizing b with
  | nil =>
    cases b with
    | nil => simpa using h
    | cons c b =>
      simp only [List.nil_append, List.cons_append, List.cons.injEq] at h
      exact absurd List.mem_cons_self (h.1 ▸ hb)
  | cons c a ih =>
    cases b with
    | nil =>
      simp only [List.nil_append, List.cons_append, List.cons.injEq] at h
      exact absurd List.mem_cons_self (h.1 ▸ ha)
    | cons d b =>
      simp only [List.cons_append, List.cons.injEq] at h
      simp only [List.mem_cons, not_or] at ha hb
      obtain ⟨e1, e2⟩ := ih ha.2 hb.2 h.2
      exact ⟨by rw [h.1, e1], e2⟩

theorem unlines_inj : ∀ {ls ms : List (List Char)}, (∀ l ∈ ls, '\n' ∉ l) → (∀ m ∈ ms, '\n' ∉ m) → unlines ls = unlines ms → ls = ms
  | [], [], _, _, _ => rfl
  | [], m :: ms, _, _, h => by simp [unlines] at h
  | l :: ls, [], _, _, h => by simp [unlines] at h
  | l :: ls, m :: ms, h1, h2, h => by
    have h' : l ++ '\n' :: unlines ls = m ++ '\n' :: unlines ms := by simpa [unlines] using h
    obtain ⟨e1, e2⟩ := split_line (h1 l List.mem_cons_self) (h2 m List.mem_cons_self) h'
    rw [e1, unlines_inj (fun x hx => h1 x (List.mem_cons_of_mem _ hx)) (fun x hx => h2 x (List.mem_cons_of_mem _ hx)) e2]

/-- the lines of a report -/
def lines (t : Text) (pre : List Char) : List (List Char) :=
  [pre ++ "RETURN:".toList ++ ' ' :: intStr t.status] ++
  (if t.out.toList = [] then [] else [pre ++ "STDOUT:".toList ++ ' ' :: rstrip t.out.toList]) ++
  (if t.err.toList = [] then [] else [pre ++ "STDERR:".toList ++ ' ' :: rstrip t.err.toList]) ++ [[]]

theorem caseprint_lines (t : Text) (pre : List Char) : caseprint t pre = unlines (lines t pre) := by
  unfold caseprint lines unlines printLine
  split <;> split <;> simp

theorem ofNat_inj {a b : UInt8} (h : Char.ofNat a.toNat = Char.ofNat b.toNat) : a = b := by
  have key : ∀ c : UInt8, (Char.ofNat c.toNat).toNat = c.toNat := by
    intro c
    have hv : c.toNat.isValidChar := Or.inl (by have := c.toNat_lt; omega)
    simp [Char.ofNat, hv, Char.toNat, Char.ofNatAux]
  have := congrArg Char.toNat h
  rw [key, key] at this
  exact UInt8.toNat_inj.mp this

theorem intStr_inj {a b : Int} (h : intStr a = intStr b) : a = b := by
  have : Value.s256Print a = Value.s256Print b := List.map_injective_iff.mpr (fun _ _ h => ofNat_inj h) h
  exact intText_unique (print_int_text a) (this ▸ print_int_text b)

theorem intStr_line (z : Int) : '\n' ∉ intStr z := by
  intro h
  unfold intStr at h
  obtain ⟨b, hb, he⟩ := List.mem_map.mp h
  have h10 : b = 10 := ofNat_inj (b := 10) he
  subst h10
  unfold Value.s256Print at hb
  have hd : ∀ n, (10 : UInt8) ∉ Value.natDec n := fun n hn => by
    have := (natDec_spec n).1 _ hn
    revert this; unfold Digit; decide
  split at hb
  · rcases List.mem_cons.mp hb with h1 | h1
    · exact absurd h1 (by decide)
    · exact hd _ h1
  · exact hd _ hb

/-! `rstrip` -/

theorem dropWhile_split (p : Char → Bool) (s : List Char) : ∃ w, s = w ++ s.dropWhile p ∧ ∀ c ∈ w, p c = true := by
  induction s with
  | nil => exact ⟨[], rfl, by simp⟩
  | cons c s ih =>
    by_cases h : p c
    · obtain ⟨w, h1, h2⟩ := ih
      refine ⟨c :: w, ?_, ?_⟩
      · rw [List.dropWhile_cons_of_pos h, List.cons_append, ← h1]
      · intro d hd
        rcases List.mem_cons.mp hd with rfl | hd
        · exact h
        · exact h2 d hd
    · exact ⟨[], by rw [List.dropWhile_cons_of_neg h]; rfl, by simp⟩

theorem dropWhile_all {p : Char → Bool} {w s : List Char} (h : ∀ c ∈ w, p c = true) : (w ++ s).dropWhile p = s.dropWhile p := by
  induction w with
  | nil => rfl
  | cons c w ih =>
    rw [List.cons_append, List.dropWhile_cons_of_pos (h c List.mem_cons_self)]
    exact ih fun d hd => h d (List.mem_cons_of_mem _ hd)

theorem rstrip_append {s w : List Char} (h : ∀ c ∈ w, isSpace c = true) : rstrip (s ++ w) = rstrip s := by
  unfold rstrip
  rw [List.reverse_append, dropWhile_all (fun c hc => h c (List.mem_reverse.mp hc))]

end Eni.Consensus
