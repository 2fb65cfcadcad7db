import Verif.Model.ConsensusFile
import Verif.Props.Consensus
/-!
# C67 for the file with the list of tests
-/
namespace Eni.Props
open Consensus

/-- The cases that are written in the file, in the order of the text. -/
inductive Written : List (Bytes × List (List Bytes)) → List (Bytes × List Bytes) → Prop
  | nil : Written [] []
  | none {lib ms cs} : Written ms cs → Written ((lib, []) :: ms) cs
  | case {lib args ops ms cs} : Written ((lib, ops) :: ms) cs → Written ((lib, args :: ops) :: ms) ((lib, args) :: cs)

theorem casesOf_written (ms : List (Bytes × List (List Bytes))) : Written ms (casesOf ms) := by
  induction ms with
  | nil => exact .nil
  | cons m ms ih =>
    obtain ⟨lib, ops⟩ := m
    induction ops with
    | nil => exact .none ih
    | cons a ops ih2 => exact .case ih2

theorem written_unique {ms : List (Bytes × List (List Bytes))} {cs : List (Bytes × List Bytes)} (h : Written ms cs) : cs = casesOf ms := by
  induction h with
  | nil => rfl
  | none _ ih => rw [ih]; rfl
  | case _ ih => rw [ih]; rfl

theorem dictSet_new (d : List (Bytes × List (List Bytes))) (name : Bytes) (ops : List (List Bytes)) (h : name ∉ d.map (·.1)) :
    dictSet d name ops = d ++ [(name, ops)] := by
  induction d with
  | nil => rfl
  | cons m d ih =>
    obtain ⟨a, b⟩ := m
    simp only [List.map_cons, List.mem_cons, not_or] at h
    rw [dictSet, if_neg (fun e => h.1 e.symm), ih h.2]
    rfl

theorem loads_distinct (ms : List (Bytes × List (List Bytes))) : ∀ d : List (Bytes × List (List Bytes)), ((d ++ ms).map (·.1)).Nodup →
    ms.foldl (fun d m => dictSet d m.1 m.2) d = d ++ ms := by
  induction ms with
  | nil => intro d _; simp
  | cons m ms ih =>
    intro d h
    have hn : m.1 ∉ d.map (·.1) := by
      rw [List.map_append, List.map_cons] at h
      have := (List.nodup_append.mp h).2.2
      intro hm
      exact this _ hm _ List.mem_cons_self rfl
    rw [List.foldl_cons, dictSet_new _ _ _ hn]
    rw [ih (d ++ [(m.1, m.2)]) (by simpa using h)]
    simp

/-- C67 for files, the part that holds: if no library is named twice, the script ends with status 0 exactly if more than one repetition is asked for and
every case written in the file is good. -/
theorem C67_file_partial (gen : Nat → UInt8 → Bytes → Option Bytes) (exec : Nat → Bytes → Bytes → Bytes → Nat → Proc) (n : Nat)
    (members : List (Bytes × List (List Bytes))) (hd : (members.map (·.1)).Nodup) (cs : List (Bytes × List Bytes)) (hw : Written members cs) :
    fileStatus gen exec n members = 0 ↔ 1 < n ∧ ∀ k c, cs[k]? = some c → CaseGood gen exec n k c := by
  have h : loadTests members = members := by
    have := loads_distinct members [] (by simpa using hd)
    simpa [loadTests] using this
  rw [fileStatus, h, ← written_unique hw]
  exact C67_script gen exec n cs

theorem dictSet_same (d : List (Bytes × List (List Bytes))) (name : Bytes) (a b : List (List Bytes)) : dictSet (dictSet d name a) name b = dictSet d name b := by
  induction d with
  | nil => simp [dictSet]
  | cons m d ih =>
    obtain ⟨x, y⟩ := m
    by_cases h : x = name
    · simp [dictSet, h]
    · simp [dictSet, h, ih]

/-- C67 is false of files: if a library is named twice, one after the other, the cases written for it first are never run. Whatever they are, the script ends as if
they were not there. -/
theorem C67_twice_false (gen : Nat → UInt8 → Bytes → Option Bytes) (exec : Nat → Bytes → Bytes → Bytes → Nat → Proc) (n : Nat)
    (before after : List (Bytes × List (List Bytes))) (lib : Bytes) (lost ops : List (List Bytes)) :
    fileStatus gen exec n (before ++ (lib, lost) :: (lib, ops) :: after) = fileStatus gen exec n (before ++ (lib, ops) :: after) := by
  unfold fileStatus loadTests
  simp only [List.foldl_append, List.foldl_cons, dictSet_same]

/-- C67 is false of files: a case that differs from run to run is written in the file, and the script ends with status 0. -/
theorem C67_missed_false : ∃ (gen : Nat → UInt8 → Bytes → Option Bytes) (exec : Nat → Bytes → Bytes → Bytes → Nat → Proc)
    (members : List (Bytes × List (List Bytes))) (cs : List (Bytes × List Bytes)) (c : Bytes × List Bytes), Written members cs ∧ c ∈ cs ∧
    (∀ k, ¬ CaseGood gen exec 3 k c) ∧ fileStatus gen exec 3 members = 0 := by
  refine ⟨fun _ _ r => some r, fun _ _ op _ i => ⟨if op = [111] then (i : Int) else 0, [97], []⟩, [([108], [[[111]]]), ([108], [[[112]]])],
    [([108], [[111]]), ([108], [[112]])], ([108], [[111]]), .case (.none (.case (.none .nil))), List.mem_cons_self, ?_, ?_⟩
  · rintro k ⟨op, args, params, h1, -, -, h4, -⟩
    simp only [List.cons.injEq] at h1
    obtain ⟨rfl, rfl⟩ := h1
    have := h4 1 (by decide)
    simp at this
  · rw [show ([([108], [[[111]]]), ([108], [[[112]]])] : List (Bytes × List (List Bytes))) = [] ++ ([108], [[[111]]]) :: ([108], [[[112]]]) :: [] from rfl,
      C67_twice_false]
    decide +kernel

theorem dictSet_names (d : List (Bytes × List (List Bytes))) (name : Bytes) (ops : List (List Bytes)) (h : (d.map (·.1)).Nodup) :
    ((dictSet d name ops).map (·.1)).Nodup ∧ ∀ x, x ∈ (dictSet d name ops).map (·.1) ↔ x ∈ d.map (·.1) ∨ x = name := by
  induction d with
  | nil => simp [dictSet]
  | cons m d ih =>
    obtain ⟨a, b⟩ := m
    simp only [List.map_cons, List.nodup_cons] at h
    by_cases e : a = name
    · subst e
      simp only [dictSet, if_true, List.map_cons, List.nodup_cons, List.mem_cons]
      exact ⟨h, fun x => by tauto⟩
    · obtain ⟨h1, h2⟩ := ih h.2
      simp only [dictSet, e, if_false, List.map_cons, List.nodup_cons, List.mem_cons]
      refine ⟨⟨fun hm => ?_, h1⟩, fun x => by rw [h2 x]; tauto⟩
      rcases (h2 a).mp hm with hm | hm
      · exact h.1 hm
      · exact e hm

theorem dictSet_mem (d : List (Bytes × List (List Bytes))) (name : Bytes) (ops : List (List Bytes)) (h : (d.map (·.1)).Nodup) (x : Bytes) (y : List (List Bytes)) :
    (x, y) ∈ dictSet d name ops ↔ (x = name ∧ y = ops) ∨ (x ≠ name ∧ (x, y) ∈ d) := by
  induction d with
  | nil => simp [dictSet]
  | cons m d ih =>
    obtain ⟨a, b⟩ := m
    simp only [List.map_cons, List.nodup_cons] at h
    by_cases e : a = name
    · subst e
      have hx : x = a → (x, y) ∉ d := fun hx hm => h.1 (List.mem_map.mpr ⟨_, hm, hx⟩)
      simp only [dictSet, if_true, List.mem_cons, Prod.mk.injEq]
      by_cases hxa : x = a
      · have := hx hxa
        subst hxa
        simp [this]
      · simp [hxa]
    · simp only [dictSet, e, if_false, List.mem_cons, Prod.mk.injEq, ih h.2]
      by_cases hxa : x = a
      · subst hxa; simp [e]
      · simp [hxa]

/-- A library with the list that is written last for it. -/
def LastFor (members : List (Bytes × List (List Bytes))) (lib : Bytes) (ops : List (List Bytes)) : Prop :=
  ∃ before after, members = before ++ (lib, ops) :: after ∧ lib ∉ after.map (·.1)

theorem lastFor_snoc (ms : List (Bytes × List (List Bytes))) (m : Bytes × List (List Bytes)) (lib : Bytes) (ops : List (List Bytes)) :
    LastFor (ms ++ [m]) lib ops ↔ (lib = m.1 ∧ ops = m.2) ∨ (lib ≠ m.1 ∧ LastFor ms lib ops) := by
  constructor
  · rintro ⟨b, a, h, hn⟩
    rcases List.eq_nil_or_concat a with rfl | ⟨a, z, rfl⟩
    · have := List.append_inj' h rfl
      simp only [List.cons.injEq, and_true] at this
      left; rw [this.2]; exact ⟨rfl, rfl⟩
    · rw [List.concat_eq_append, ← List.cons_append, ← List.append_assoc] at h
      have := List.append_inj' h rfl
      simp only [List.cons.injEq, and_true] at this
      simp only [List.concat_eq_append, List.map_append, List.mem_append, List.map_cons, List.map_nil, List.mem_singleton, not_or] at hn
      right; rw [this.2]; exact ⟨hn.2, b, a, this.1, hn.1⟩
  · rintro (⟨rfl, rfl⟩ | ⟨hne, b, a, rfl, hn⟩)
    · exact ⟨ms, [], rfl, by simp⟩
    · refine ⟨b, a ++ [m], by simp, ?_⟩
      simp only [List.map_append, List.mem_append, List.map_cons, List.map_nil, List.mem_singleton, not_or]
      exact ⟨hn, hne⟩

theorem loadTests_spec (ms : List (Bytes × List (List Bytes))) :
    ((loadTests ms).map (·.1)).Nodup ∧ ∀ lib ops, (lib, ops) ∈ loadTests ms ↔ LastFor ms lib ops := by
  induction ms using List.reverseRecOn with
  | nil => exact ⟨by simp [loadTests], fun lib ops => by simp [loadTests, LastFor]⟩
  | append_singleton ms m ih =>
    have e : loadTests (ms ++ [m]) = dictSet (loadTests ms) m.1 m.2 := by simp [loadTests, List.foldl_append]
    rw [e]
    refine ⟨(dictSet_names _ _ _ ih.1).1, fun lib ops => ?_⟩
    rw [dictSet_mem _ _ _ ih.1, lastFor_snoc, ih.2]

/-- C67 for all files: a case is run exactly if it is in the list written last for its library. -/
theorem C67_run (members : List (Bytes × List (List Bytes))) (lib : Bytes) (args : List Bytes) :
    (lib, args) ∈ casesOf (loadTests members) ↔ ∃ ops, LastFor members lib ops ∧ args ∈ ops := by
  simp only [casesOf, List.mem_flatMap, List.mem_map, Prod.mk.injEq, Prod.exists]
  constructor
  · rintro ⟨l, ops, hm, a, ha, rfl, rfl⟩
    exact ⟨ops, ((loadTests_spec members).2 _ _).mp hm, ha⟩
  · rintro ⟨ops, hl, ha⟩
    exact ⟨lib, ops, ((loadTests_spec members).2 _ _).mpr hl, args, ha, rfl, rfl⟩

/-- C67 is false of the project's own list of tests: it names eni_scrypt.so twice. The case with hexadecimal digits is written in the file and never run, wherever
the project is built; with any other list in its place the script ends with the same status. -/
theorem C67_shipped_false (dir : Bytes) :
    (∃ cs, Written (shippedTests dir) cs ∧ (dir ++ ascii "/tools/eni_scrypt/eni_scrypt.so", [ascii "scrypt", ascii "h:160"]) ∈ cs) ∧
    (dir ++ ascii "/tools/eni_scrypt/eni_scrypt.so", [ascii "scrypt", ascii "h:160"]) ∉ casesOf (loadTests (shippedTests dir)) ∧
    ∀ gen exec n lost, fileStatus gen exec n (shippedTests dir) = fileStatus gen exec n ((shippedTests dir).set 2 (dir ++ ascii "/tools/eni_scrypt/eni_scrypt.so", lost)) := by
  refine ⟨⟨_, casesOf_written _, by simp [casesOf, shippedTests]⟩, ?_, fun gen exec n lost => ?_⟩
  · rw [C67_run]
    rintro ⟨ops, hl, hm⟩
    have h3 : LastFor ((shippedTests dir).take 3 ++ [(dir ++ ascii "/tools/eni_scrypt/eni_scrypt.so", [[ascii "scrypt", ascii "s:160"]])])
        (dir ++ ascii "/tools/eni_scrypt/eni_scrypt.so") ops := hl
    rw [lastFor_snoc] at h3
    rcases h3 with ⟨-, rfl⟩ | ⟨hne, -⟩
    · simp only [List.mem_singleton] at hm
      revert hm
      clear hl
      decide +kernel
    · exact hne rfl
  · have key := fun l => C67_twice_false gen exec n ((shippedTests dir).take 2) [] (dir ++ ascii "/tools/eni_scrypt/eni_scrypt.so") l
      [[ascii "scrypt", ascii "s:160"]]
    exact (key [[ascii "scrypt", ascii "h:160"]]).trans (key lost).symm

/-- C67: the second list for eni_scrypt.so is run. -/
example (dir : Bytes) : (dir ++ ascii "/tools/eni_scrypt/eni_scrypt.so", [ascii "scrypt", ascii "s:160"]) ∈ casesOf (loadTests (shippedTests dir)) :=
  (C67_run _ _ _).mpr ⟨_, ⟨(shippedTests dir).take 3, [], rfl, by simp⟩, List.mem_cons_self⟩

/-- C67: a file without any case is a success. -/
example : fileStatus (fun _ _ r => some r) (fun _ _ _ _ _ => ⟨0, [97], []⟩) 3 [([108], []), ([109], [])] = 0 := by decide +kernel
example := C67_file_partial (fun _ _ r => some r) (fun _ _ _ _ _ => ⟨0, [97], []⟩) 3 [([108], [[[111]]]), ([109], [[[112]]])] (by decide)
  [([108], [[111]]), ([109], [[112]])] (.case (.none (.case (.none .nil))))

end Eni.Props
