import Verif.Proofs.VectorCapacity
import Verif.Proofs.VectorObs
/-!
# C127: capacity, memory and failures of a `Vector` are determined by its history
-/
namespace Eni.Props
open Spec

variable {α : Type}

/-- C127. For every history of operations on two vectors and every sequence of answers of the allocator: an operation fails for lack of
memory exactly if it asks for more elements than the capacity and memory is refused; the contents, the reports and the capacities are
those of the specification, so the capacity is the largest number of elements that room was asked for since the vector was made or
cleared; and the memory owned is at least the capacity and less than twice the capacity. -/
theorem C127_capacity (cfg : Vec.Cfg α) (ops : List (VOp α × Bool)) (hp : CPres cfg.sz cfg.dflt (([], []), (0, 0)) ops) :
    ∃ v w, Vec.run cfg (Vec.empty, Vec.empty) ops = .ok ((v, w), (cruns cfg.dflt (([], []), (0, 0)) ops).2) ∧
      Contents v (cruns cfg.dflt (([], []), (0, 0)) ops).1.1.1 ∧ Contents w (cruns cfg.dflt (([], []), (0, 0)) ops).1.1.2 ∧
      v.capacity = (cruns cfg.dflt (([], []), (0, 0)) ops).1.2.1 ∧ w.capacity = (cruns cfg.dflt (([], []), (0, 0)) ops).1.2.2 ∧
      Snug v ∧ Snug w := by
  have hf0 : Fits cfg.sz 0 := by unfold Fits; omega
  have S : Snug (Vec.empty : Vec α) := by rw [Vec.snug_def]; simp [Vec.empty, room]
  obtain ⟨⟨v, w⟩, e, R, c, S1, S2⟩ := Vec.run_det (cfg := cfg) ops (Vec.empty, Vec.empty) ([], [])
    ⟨Vec.rep_empty, Vec.rep_empty, hf0, hf0⟩ S S hp
  have c1 := congrArg Prod.fst c
  have c2 := congrArg Prod.snd c
  exact ⟨v, w, e, Vec.rep_contents R.r1, Vec.rep_contents R.r2, c1, c2, S1, S2⟩

/-- C127. An operation that asks for no more than the capacity never fails for lack of memory: its outcome is the same whether or not
memory would be granted. -/
theorem C127_within_capacity (cfg : Vec.Cfg α) (ops : List (VOp α × Bool)) (op : VOp α)
    (hp : CPres cfg.sz cfg.dflt (([], []), (0, 0)) ops)
    (hq : VPre cfg.sz (cruns cfg.dflt (([], []), (0, 0)) ops).1.1 op) {v w : Vec α} {rs : List (VRet α)}
    (e : Vec.run cfg (Vec.empty, Vec.empty) ops = .ok ((v, w), rs))
    (hn : need (cruns cfg.dflt (([], []), (0, 0)) ops).1.1 op ≤ v.capacity) (g : Bool) :
    ∃ s', Vec.step cfg g (v, w) op = .ok (s', (vstep cfg.dflt (cruns cfg.dflt (([], []), (0, 0)) ops).1.1 op).2) ∧
      Contents s'.1 (vstep cfg.dflt (cruns cfg.dflt (([], []), (0, 0)) ops).1.1 op).1.1 := by
  have hf0 : Fits cfg.sz 0 := by unfold Fits; omega
  have S : Snug (Vec.empty : Vec α) := by rw [Vec.snug_def]; simp [Vec.empty, room]
  obtain ⟨s, e', R, c, S1, S2⟩ := Vec.run_det (cfg := cfg) ops (Vec.empty, Vec.empty) ([], [])
    ⟨Vec.rep_empty, Vec.rep_empty, hf0, hf0⟩ S S hp
  rw [e] at e'
  simp only [Res.ok.injEq, Prod.mk.injEq] at e'
  obtain ⟨rfl, _⟩ := e'
  obtain ⟨s', h, R', _, _, _⟩ := Vec.step_det (g := g) R op hq S1 S2
  have hn' : need (cruns cfg.dflt (([], []), ((Vec.empty : Vec α).alloc, (Vec.empty : Vec α).alloc)) ops).1.1 op ≤ v.alloc ∨ g = true := Or.inl hn
  simp only [cstep] at h R'
  rw [if_pos hn'] at h R'
  exact ⟨s', h, Vec.rep_contents R'.r1⟩

/-- C127. An operation that asks for more than the capacity while memory is refused throws `BadAlloc<NoMemory>` and changes nothing. -/
theorem C127_beyond_capacity (cfg : Vec.Cfg α) (ops : List (VOp α × Bool)) (op : VOp α)
    (hp : CPres cfg.sz cfg.dflt (([], []), (0, 0)) ops)
    (hq : VPre cfg.sz (cruns cfg.dflt (([], []), (0, 0)) ops).1.1 op) {v w : Vec α} {rs : List (VRet α)}
    (e : Vec.run cfg (Vec.empty, Vec.empty) ops = .ok ((v, w), rs))
    (hn : v.capacity < need (cruns cfg.dflt (([], []), (0, 0)) ops).1.1 op) :
    Vec.step cfg false (v, w) op = .ok ((v, w), .exc .noMemory) := by
  have hf0 : Fits cfg.sz 0 := by unfold Fits; omega
  have S : Snug (Vec.empty : Vec α) := by rw [Vec.snug_def]; simp [Vec.empty, room]
  obtain ⟨s, e', R, c, S1, S2⟩ := Vec.run_det (cfg := cfg) ops (Vec.empty, Vec.empty) ([], [])
    ⟨Vec.rep_empty, Vec.rep_empty, hf0, hf0⟩ S S hp
  rw [e] at e'
  simp only [Res.ok.injEq, Prod.mk.injEq] at e'
  obtain ⟨rfl, _⟩ := e'
  obtain ⟨s', h, _⟩ := Vec.step_det (g := false) R op hq S1 S2
  have hcap := Vec.step_cap R op hq S1 S2 h
  have hno : ¬(need (cruns cfg.dflt (([], []), (0, 0)) ops).1.1 op ≤ v.alloc ∨ false = true) := by
    have hn' : v.alloc < need (cruns cfg.dflt (([], []), (0, 0)) ops).1.1 op := hn
    simp; omega
  obtain ⟨hr, hs⟩ := hcap.2 hno
  rw [h, hr, hs]

/-- Non-trivial case: three elements, a copy, a refused `push_back` and an `assign` of fewer elements that needs no memory. -/
example := C127_capacity (⟨8, 0, 0, by decide⟩ : Vec.Cfg Nat)
  [(.pushBack 1, true), (.reserve 3, true), (.pushBack 2, false), (.pushBack 3, false), (.copy, true), (.pushBack 4, false),
    (.assignN 2 7, false), (.swap, false), (.clear, false)]
  (by simp [CPres, cstep, need, caps, vstep, VPre, Fits])

/-- The fourth element is refused: the capacity is 3, as requested. -/
example : cruns 0 (([], []), (0, 0))
    [(.pushBack 1, true), (.reserve 3, true), (.pushBack 2, false), (.pushBack 3, false), (.copy, true), (.pushBack 4, false),
      (.assignN 2 7, false), (.swap, false)] =
    ((([1, 2, 3], [7, 7]), (3, 3)), [.done, .done, .done, .done, .done, .exc .noMemory, .done, .done]) := by decide +kernel

example : Vec.step (⟨8, 0, 0, by decide⟩ : Vec.Cfg Nat) false (Vec.empty, Vec.empty) (.pushBack 1) =
    .ok ((Vec.empty, Vec.empty), .exc .noMemory) :=
  C127_beyond_capacity _ [] (.pushBack 1) trivial (by show Fits _ _; decide) rfl (by decide)

example := C127_within_capacity (⟨8, 0, 0, by decide⟩ : Vec.Cfg Nat) [(.reserve 3, true)] (.resize 3)
  (by simp [CPres, VPre, Fits]) (by simp [VPre, Fits]) rfl (by decide) false

end Eni.Props
