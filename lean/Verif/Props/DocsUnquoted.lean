import Verif.Props.TestLib
/-!
# C108: the commands in docs/tools/eni_cli.rst

They read `eni_gas lib rsa_encrypt $(cat pub_encrypt.json)`, without quotation marks around `$(...)`.
-/
namespace Eni.Props
open TestLib Spec Base Json Cli

theorem substitute_line (b : Bytes) (h0 : (0 : UInt8) ∉ b) (hl : ∀ c, b.getLast? = some c → c ≠ 10) (n : Nat) : substitute (b ++ List.replicate n 10) = b := by
  have hf : (b ++ List.replicate n (10 : UInt8)).filter (· ≠ 0) = b ++ List.replicate n 10 := by
    rw [List.filter_eq_self]
    intro c hc
    simp only [decide_not, Bool.not_eq_eq_eq_not, Bool.not_true, decide_eq_false_iff_not]
    rintro rfl
    rcases List.mem_append.mp hc with hc | hc
    · exact h0 hc
    · have := List.eq_of_mem_replicate hc
      revert this
      decide
  rw [substitute, hf, chop_append b n hl]

/-- A text whose first word is followed by a separator and another character has at least two words. -/
theorem words_first (a b : Bytes) (c : UInt8) (ha : ∀ x ∈ a, isIfs x = false) (hn : a ≠ []) (hc : isIfs c = true) (hs : substitute (a ++ c :: b) = a ++ c :: b)
    (d : UInt8) (t : Bytes) (hb : b = d :: t) (hd : isIfs d = false) : ∃ w ws, words (a ++ c :: b) = a :: (d :: w) :: ws := by
  unfold words
  rw [hs, List.splitOnP_first (p := isIfs) (xs := a) (h := fun x hx => by simp [ha x hx]) c hc b]
  subst hb
  rw [List.splitOnP_cons, if_neg (by simp [hd])]
  cases hsp : t.splitOnP isIfs with
  | nil => exact absurd hsp (List.splitOnP_ne_nil _ _)
  | cons w ws =>
    refine ⟨w, ws.filter (· ≠ []), ?_⟩
    simp [hn]

/-- What word splitting does: words are not empty and have no separator in them, and nothing but separators is lost. -/
theorem words_spec (b : Bytes) : (∀ w ∈ words b, w ≠ [] ∧ ∀ c ∈ w, c ∉ [(32 : UInt8), 9, 10]) ∧
    (words b).flatten = (substitute b).filter (· ∉ [(32 : UInt8), 9, 10]) := by
  have hi : ∀ c : UInt8, isIfs c = true ↔ c ∈ [(32 : UInt8), 9, 10] := by simp [isIfs, or_assoc]
  have key : ∀ l : Bytes, (∀ w ∈ l.splitOnP isIfs, ∀ c ∈ w, isIfs c = false) ∧ (l.splitOnP isIfs).flatten = l.filter fun c => !isIfs c := by
    intro l
    induction l with
    | nil => simp
    | cons c l ih =>
      rw [List.splitOnP_cons]
      by_cases hc : isIfs c = true
      · simp only [hc, if_true, List.mem_cons, List.flatten_cons, List.nil_append, ih.2]
        refine ⟨?_, by simp [hc]⟩
        rintro w (rfl | hw)
        · simp
        · exact ih.1 w hw
      · have hc' : isIfs c = false := by simpa using hc
        cases hs : l.splitOnP isIfs with
        | nil => exact absurd hs (List.splitOnP_ne_nil _ _)
        | cons w ws =>
          rw [hs] at ih
          simp only [hc', Bool.false_eq_true, if_false, List.modifyHead_cons]
          constructor
          · intro x hx
            rcases List.mem_cons.mp hx with rfl | hx
            · intro y hy
              rcases List.mem_cons.mp hy with rfl | hy
              · exact hc'
              · exact ih.1 w List.mem_cons_self y hy
            · exact ih.1 x (List.mem_cons_of_mem _ hx)
          · have := ih.2
            simp only [List.flatten_cons] at this ⊢
            rw [List.cons_append, this]
            simp [hc']
  obtain ⟨h1, h2⟩ := key (substitute b)
  constructor
  · intro w hw
    obtain ⟨hw1, hw2⟩ := List.mem_filter.mp hw
    refine ⟨by simpa using hw2, fun c hc hm => ?_⟩
    rw [← hi c, h1 w hw1 c hc] at hm
    cases hm
  · have hf : ∀ L : List Bytes, (L.filter (· ≠ [])).flatten = L.flatten := by
      intro L
      induction L with
      | nil => rfl
      | cons x L ih => cases x <;> simp_all
    unfold words
    rw [hf, h2]
    congr 1
    funext c
    rw [Bool.eq_iff_iff]
    simp only [Bool.not_eq_true', decide_eq_true_eq, ← hi c, Bool.not_eq_true]

theorem parse_too_many (lib name a w : Bytes) (ws : List Bytes) (h1 : lib.head? ≠ some 45) (h2 : name.head? ≠ some 45) (h3 : a.head? ≠ some 45)
    (h4 : w.head? ≠ some 45) : Cli.parse (lib :: name :: a :: w :: ws) = none := by
  simp [Cli.parse, parseLoop, h1, h2, h3, h4]

/-- C108 is false of the commands in docs/tools/eni_cli.rst. Whatever the key and the message, the text of a file with a PEM key contains a space, so the tools get too many
arguments: they print how they are used and end with status 2 and 1, on every system, whatever the library does. With quotation marks, as in
docs/testing-prebuilt-eni-operations.rst, the text is one argument. -/
theorem C108_unquoted_false (S : Sys) (lib name : Bytes) (hlib : lib.head? ≠ some 45) (hname : name.head? ≠ some 45) (rest : Bytes) (n : Nat)
    (h0 : (0 : UInt8) ∉ rest) (hl : ∀ c, rest.getLast? = some c → c ≠ 10) (hr : rest ≠ []) (kind : Bytes)
    (hk : kind = "PUBLIC KEY".toUTF8.toList ∨ kind = "RSA PRIVATE KEY".toUTF8.toList) :
    let file := "[\"-----BEGIN ".toUTF8.toList ++ kind ++ rest
    gasMain S (lib :: name :: words (file ++ List.replicate n 10)) = .ok ⟨[], help gasName gasDesc, 2⟩ ∧
    runMain S (lib :: name :: words (file ++ List.replicate n 10)) = .ok ⟨[], help runName runDesc, 1⟩ ∧
    substitute (file ++ List.replicate n 10) = file := by
  intro file
  have hhead : "[\"-----BEGIN ".toUTF8.toList = [91, 34, 45, 45, 45, 45, 45, 66, 69, 71, 73, 78] ++ [32] := by decide +kernel
  have hkind : ∃ d t, kind = d :: t ∧ isIfs d = false ∧ d ≠ 45 ∧ (0 : UInt8) ∉ kind := by
    rcases hk with rfl | rfl
    · exact ⟨80, "UBLIC KEY".toUTF8.toList, by decide +kernel, by decide, by decide, by decide +kernel⟩
    · exact ⟨82, "SA PRIVATE KEY".toUTF8.toList, by decide +kernel, by decide, by decide, by decide +kernel⟩
  obtain ⟨d, t, rfl, hd, hd45, hk0⟩ := hkind
  have hfile : file = [91, 34, 45, 45, 45, 45, 45, 66, 69, 71, 73, 78] ++ 32 :: (d :: (t ++ rest)) := by
    show "[\"-----BEGIN ".toUTF8.toList ++ (d :: t) ++ rest = _
    rw [hhead]
    simp
  have hf0 : (0 : UInt8) ∉ file := by
    rw [hfile]
    simp only [List.mem_append, List.mem_cons, not_or] at hk0 ⊢
    refine ⟨by decide, by decide, hk0.1, hk0.2, h0⟩
  have hfl : ∀ c, file.getLast? = some c → c ≠ 10 := by
    intro c hc
    apply hl c
    have : file = ("[\"-----BEGIN ".toUTF8.toList ++ (d :: t)) ++ rest := rfl
    rw [this, List.getLast?_append_of_ne_nil _ hr] at hc
    exact hc
  have hsub := substitute_line file hf0 hfl
  have hw : words (file ++ List.replicate n 10) = words file := by
    have h2 : substitute file = file := by simpa using hsub 0
    unfold words
    rw [hsub n, h2]
  obtain ⟨w, ws, hws⟩ := words_first [91, 34, 45, 45, 45, 45, 45, 66, 69, 71, 73, 78] (d :: (t ++ rest)) 32 (by decide) (by decide) (by decide)
    (by rw [← hfile]; simpa using hsub 0) d (t ++ rest) rfl hd
  rw [← hfile] at hws
  rw [hw, hws]
  have hp := parse_too_many lib name [91, 34, 45, 45, 45, 45, 45, 66, 69, 71, 73, 78] (d :: w) ws hlib hname (by decide) (by simpa using hd45)
  exact ⟨by simp only [gasMain, hp]; rfl, by simp only [runMain, hp], hsub n⟩

/-- For example with a key and a message in the usual form. -/
example (S : Sys) := C108_unquoted_false S [47, 108] [114] (by decide) (by decide) "-----\\nMII\", \"Hello World!\"]".toUTF8.toList 1 (by decide +kernel)
  (by decide +kernel) (by decide +kernel) _ (.inl rfl)
/-- A text without separators is one word, so the commands for the other operations work without quotation marks. -/
example : words ("[\"00\"]\n".toUTF8.toList) = ["[\"00\"]".toUTF8.toList] := by decide +kernel

end Eni.Props
