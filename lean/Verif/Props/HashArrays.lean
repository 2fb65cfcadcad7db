import Verif.Proofs.HashArrays
import Verif.Props.HashTable
/-! # C98: bucket arrays are released exactly once -/
namespace Eni
namespace Props
open Spec
variable {K V : Type} [DecidableEq K]

/-- C98, for whole programs, exactly: no array is used after its release, none is released twice, the program otherwise runs as in C06 and C10.
A variable has an array exactly when the specification says so, different variables have different arrays, and the arrays in use are those of the
variables and as many others as move assignments have dropped. No table knows the others, so nothing can release them any more. -/
theorem C98_programs (hash : K → UInt32) (dflt : V) (ss : List (Stmt K V)) (hp : MPres dflt (fun _ => none) ss) :
    ∃ s, ∃ lost : List Nat, PWorld.run hash dflt PWorld.start ss = .ok s ∧ World.run hash dflt World.start ss = .ok s.w ∧
      (∀ i, (∃ p, s.ptr i = some p) ↔ ∃ x, mrun dflt (fun _ => none) ss i = some x ∧ x.arr = true) ∧
      (∀ i j p, s.ptr i = some p → s.ptr j = some p → i = j) ∧
      (∀ p, s.mem.live p = true ↔ (∃ i, s.ptr i = some p) ∨ p ∈ lost) ∧ (∀ i p, s.ptr i = some p → p ∉ lost) ∧
      lost.Nodup ∧ lost.length = dropped dflt (fun _ => none) ss := by
  obtain ⟨s, L, M, h1, h2, I, R, hM⟩ := PWorld.run_ok (hash := hash) ss PWorld.start _ [] [] PWorld.start_inv World.start_rel hp
  refine ⟨s, M, h1, h2, fun i => ?_, I.inj, fun p => ⟨I.own p, ?_⟩, fun i p hi hl => I.lostFree p hl i hi, I.lostNodup, by simpa using hM⟩
  · rcases R.vars i with ⟨h3, h4⟩ | ⟨t, x, h3, h4, V⟩
    · simp [h4, I.dead i h3]
    · have := (I.arr i t h3).is
      rw [V.arr] at this
      rw [h4]
      simp [← this, Option.isSome_iff_exists]
  · rintro (⟨i, hi⟩ | hl)
    · exact I.live hi
    · exact I.lostLive p hl

example := C98_programs sampleHash 0 sampleProg sampleProg_pres

/-- C98: when all tables are destroyed, no array is left exactly if no move assignment had a destination with an array. -/
theorem C98_iff (hash : K → UInt32) (dflt : V) (ss : List (Stmt K V)) (hp : MPres dflt (fun _ => none) ss)
    (hd : ∀ i, mrun dflt (fun _ => none) ss i = none) :
    ∃ s, PWorld.run hash dflt PWorld.start ss = .ok s ∧ ((∀ p, s.mem.live p = false) ↔ dropped dflt (fun _ => none) ss = 0) := by
  obtain ⟨s, lost, h1, _, h3, _, h5, _, _, h8⟩ := C98_programs hash dflt ss hp
  have hn : ∀ i p, s.ptr i ≠ some p := by
    intro i p hi
    obtain ⟨x, hx, _⟩ := (h3 i).mp ⟨p, hi⟩
    rw [hd i] at hx; cases hx
  refine ⟨s, h1, fun h => ?_, fun h p => ?_⟩
  · rw [← h8]
    cases lost with
    | nil => rfl
    | cons p l => have := (h5 p).mpr (.inr (by simp)); rw [h p] at this; cases this
  · rw [h] at h8
    have hl : lost = [] := List.length_eq_zero_iff.mp h8
    cases hc : s.mem.live p with
    | false => rfl
    | true =>
      rcases (h5 p).mp hc with ⟨i, hi⟩ | hi
      · exact absurd hi (hn i p)
      · rw [hl] at hi; cases hi

example := C98_iff sampleHash 0 sampleProg sampleProg_pres sampleProg_end

/-- C98 without move assignments onto tables that have an array. Missing: those move assignments - the code leaks there, see `C98_iff`. -/
theorem C98_released_partial (hash : K → UInt32) (dflt : V) (ss : List (Stmt K V)) (hp : MPres dflt (fun _ => none) ss)
    (h0 : dropped dflt (fun _ => none) ss = 0) :
    ∃ s, PWorld.run hash dflt PWorld.start ss = .ok s ∧ (∀ p, s.mem.live p = true → ∃ i, s.ptr i = some p) ∧
      ((∀ i, mrun dflt (fun _ => none) ss i = none) → ∀ p, s.mem.live p = false) := by
  obtain ⟨s, lost, h1, _, _, _, h5, _, _, h8⟩ := C98_programs hash dflt ss hp
  have hl : lost = [] := List.length_eq_zero_iff.mp (by rw [h8, h0])
  refine ⟨s, h1, fun p h => ?_, fun hd => ?_⟩
  · rcases (h5 p).mp h with h | h
    · exact h
    · rw [hl] at h; cases h
  · obtain ⟨s', h1', h⟩ := C98_iff hash dflt ss hp hd
    rw [h1] at h1'; cases h1'
    exact h.mpr h0

/-- copies, a move onto a table without array, growth, `clear` -/
example := C98_released_partial sampleHash 0 [.new 0 0, .assign 0 1 10, .assign 0 2 20, .copyNew 1 0, .new 2 0, .moveAssign 2 0, .copyAssign 1 2, .clear 1,
    .insert 0 7, .rehashN 0 40, .destroy 0, .destroy 1, .destroy 2]
  (by simp [MPres, MPre, mstep, MWorld.put, FMap.set, FMap.insertNew, FMap.lookup, FMap.erase]) (by simp [dropped, drops, mstep, MWorld.put])

/-- `HashTable a(1), b(1); a = std::move(b);` and both are destroyed -/
def movedOnto : List (Stmt Nat Nat) := [.new 0 1, .new 1 1, .moveAssign 0 1, .destroy 0, .destroy 1]

/-- C98 is false of the code: a move assignment drops the array of its destination, although neither table holds an entry. -/
theorem C98_move_false : ∃ s, PWorld.run (fun k => UInt32.ofNat k) 0 PWorld.start movedOnto = .ok s ∧
    (∀ i, s.w.tabs i = none) ∧ s.mem.live 0 = true ∧ ∀ i, s.ptr i ≠ some 0 := by
  have hp : MPres 0 (fun _ => none) movedOnto := by simp [movedOnto, MPres, MPre, mstep, MWorld.put]
  have hd : ∀ i, mrun 0 (fun _ => none) movedOnto i = none := by
    intro i
    simp only [movedOnto, mrun, mstep, MWorld.put]
    split
    · rfl
    · split
      · rfl
      · next h1 h0 => simp [h1, h0, MWorld.put]
  obtain ⟨s, L, M, h1, h2, I, R, hM⟩ := PWorld.run_ok (hash := fun k => UInt32.ofNat k) movedOnto PWorld.start _ [] [] PWorld.start_inv World.start_rel hp
  have ht : ∀ i, s.w.tabs i = none := fun i => R.get_none (hd i)
  refine ⟨s, h1, ht, ?_, fun i => by rw [I.dead i (ht i)]; simp⟩
  have h3 : (PWorld.run (fun k => UInt32.ofNat k) 0 PWorld.start movedOnto).bind (fun s => .ok (s.mem.live 0)) = .ok true := by
    decide +kernel
  rw [h1] at h3
  exact Res.ok.inj h3

/-- releases are checked: destroying a table whose array is gone is undefined behaviour -/
example : (HashTable.destroyP Blocks.init (some 0) (Heap.empty : Heap Nat Nat) ⟨true, [], 0, 0, 0⟩).bind (fun _ => .ok ()) = .ub .doubleFree := by
  decide +kernel

end Props
end Eni
