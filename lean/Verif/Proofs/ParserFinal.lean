import Verif.Proofs.ParserLoss
import Verif.Proofs.JsonSound
import Verif.Proofs.JsonComplete
import Mathlib.Tactic.Ring
import Mathlib.Tactic.Linarith
/-!
# Parsing in memory: the end result
-/
namespace Eni.Owner
open Spec
open Json (Ev EvOf EvsOf MsOf PartOf)

namespace Abs

theorem part_abs (grow : Nat → Bool) {es : List Ev} (h : PartOf es) : ∀ s : Abs, ∃ s', s.run grow es = some s' := by
  induction h with
  | nil => exact fun s => ⟨s, rfl⟩
  | arr h1 _ ih =>
    intro s
    obtain ⟨a0, g0, b1, _⟩ := begin_eq grow s (.arr [])
    obtain ⟨s2, g, e1, _⟩ := evs_abs grow h1 (s := ⟨(.arr [], []) :: s.stack, s.root, a0, s.k + g0⟩) rfl
    obtain ⟨s3, e3⟩ := ih s2
    exact ⟨s3, by simp only [run, step, b1, run_append, e1, Option.bind_some, e3]⟩
  | obj h1 =>
    intro s
    obtain ⟨a0, g0, b1, _⟩ := begin_eq grow s (.obj [] [])
    obtain ⟨s2, g, key, e1, _⟩ := ms_abs grow h1 (s := ⟨(.obj [] [], []) :: s.stack, s.root, a0, s.k + g0⟩) rfl
    exact ⟨s2, by simp only [run, step, b1, e1]⟩
  | @objKey es ms k p h1 _ ih =>
    intro s
    obtain ⟨a0, g0, b1, _⟩ := begin_eq grow s (.obj [] [])
    obtain ⟨s2, g, key, e1, e2, _⟩ := ms_abs grow h1 (s := ⟨(.obj [] [], []) :: s.stack, s.root, a0, s.k + g0⟩) rfl
    obtain ⟨s3, e3⟩ := ih { s2 with stack := (.obj ((membersOf ms).foldl putMember ([], [])).1 ((membersOf ms).foldl putMember ([], [])).2, k) :: s.stack }
    refine ⟨s3, ?_⟩
    simp only [run, step, b1, run_append, e1, Option.bind_some, e2, e3]

/-! ### amounts -/

theorem old_put (ks : List Bytes) (us : List Tree) (key : Bytes) (x : Tree) :
    Tree.cellsAll (putMember (ks, us) (key, x)).2 ≤ Tree.cellsAll us + x.cells := by
  unfold putMember
  split
  · clear *-
    simp only
    generalize List.idxOf key ks = i
    induction us generalizing i with
    | nil => simp [Tree.cellsAll]
    | cons u us ih =>
      cases i with
      | zero => simp only [List.set_cons_zero, Tree.cellsAll]; omega
      | succ i =>
        have := ih i
        simp only [List.set_cons_succ, Tree.cellsAll]
        omega
  · simp [cellsAll_append, Tree.cellsAll]

theorem attach_cells {s s1 : Abs} {x : Tree} (h : s.attach x = some s1) : s1.cells ≤ s.cells + x.cells ∧ s1.a = s.a + x.cells := by
  obtain ⟨st, r, a, k⟩ := s
  cases st with
  | nil =>
    simp only [attach, Option.some.injEq] at h
    subst h
    refine ⟨?_, rfl⟩
    simp only [cells, List.map_nil, Tree.cellsAll]
    omega
  | cons p rest =>
    obtain ⟨y, key⟩ := p
    cases y with
    | obj ks us =>
      simp only [attach, Option.some.injEq] at h
      subst h
      have := old_put ks us key x
      refine ⟨?_, rfl⟩
      simp only [cells, List.map_cons, Tree.cellsAll, Tree.cells]
      omega
    | arr us =>
      simp only [attach, Option.some.injEq] at h
      subst h
      refine ⟨?_, rfl⟩
      simp only [cells, List.map_cons, Tree.cellsAll, Tree.cells, cellsAll_append]
      omega
    | undef => simp [attach] at h
    | bool => simp [attach] at h
    | int => simp [attach] at h
    | str => simp [attach] at h

theorem deliver_cells {s s1 : Abs} {x : Tree} (h : s.deliver x = some s1) : s1.cells ≤ s.cells + x.cells ∧ s1.a = s.a + 2 * x.cells := by
  unfold deliver at h
  split at h
  case h_2 => cases h
  rename_i s2 h2
  cases h
  obtain ⟨a, b⟩ := attach_cells h2
  simp only [cells] at a ⊢
  omega

theorem step_cells {grow : Nat → Bool} {s s1 : Abs} {e : Ev} (h : s.step grow e = some s1) : s1.cells ≤ s.cells + 1 ∧ s1.a ≤ s.a + 3 * s.cells + 3 := by
  have end_case : s.end_ = some s1 → s1.cells ≤ s.cells + 1 ∧ s1.a ≤ s.a + 3 * s.cells + 3 := by
    intro h
    unfold end_ at h
    split at h
    · cases h
    · rename_i x key rest hs
      split at h
      case h_2 => cases h
      rename_i s2 h2
      cases h
      obtain ⟨a, b⟩ := deliver_cells h2
      simp only [cells, hs, List.map_cons, Tree.cellsAll] at a b ⊢
      omega
  have begin_case : ∀ x : Tree, x.cells = 1 → (s.begin_ grow x).cells ≤ s.cells + 1 ∧ (s.begin_ grow x).a ≤ s.a + 3 * s.cells + 3 := by
    intro x hx
    unfold begin_
    split <;> simp only [cells, List.map_cons, Tree.cellsAll] <;> omega
  cases e with
  | boolean b =>
    obtain ⟨a, b⟩ := deliver_cells h
    simp only [Tree.cells] at a b
    omega
  | number t =>
    obtain ⟨a, b⟩ := deliver_cells h
    simp only [Tree.cells, cells] at a b ⊢
    omega
  | string x key =>
    cases key with
    | false =>
      obtain ⟨a, b⟩ := deliver_cells h
      simp only [Tree.cells, cells] at a b ⊢
      omega
    | true =>
      simp only [step] at h
      split at h
      · cases h
      · rename_i hs
        cases h
        simp only [cells, hs, List.map_cons]
        omega
  | beginArray =>
    simp only [step, Option.some.injEq] at h
    subst h
    exact begin_case _ rfl
  | beginObject =>
    simp only [step, Option.some.injEq] at h
    subst h
    exact begin_case _ rfl
  | endArray => exact end_case h
  | endObject => exact end_case h

theorem run_cells {grow : Nat → Bool} : ∀ (es : List Ev) {s s1 : Abs} {N : Nat}, s.run grow es = some s1 → s.cells ≤ N → 2 * s.a ≤ 3 * (N * (N + 1)) →
    s1.cells ≤ N + es.length ∧ 2 * s1.a ≤ 3 * ((N + es.length) * (N + es.length + 1)) := by
  intro es
  induction es with
  | nil => intro s s1 N h h1 h2; cases h; exact ⟨h1, h2⟩
  | cons e es ih =>
    intro s s1 N h h1 h2
    simp only [run] at h
    split at h
    case h_2 => cases h
    rename_i s2 e2
    obtain ⟨a, b⟩ := step_cells e2
    have := ih (N := N + 1) h (by omega) (by nlinarith)
    rw [List.length_cons, show N + (es.length + 1) = N + 1 + es.length by omega]
    exact this

end Abs

/-! ### clean values -/

theorem cells_zero_isBool {j : JV} : j.tree.cells = 0 ↔ j.isBool := by
  cases j <;> simp [JV.tree, Tree.cells, JV.isBool]

theorem cells_zero_all {js : List JV} : Tree.cellsAll (treesOf js) = 0 ↔ ∀ j ∈ js, j.isBool := by
  induction js with
  | nil => simp [treesOf, Tree.cellsAll]
  | cons j js ih => simp [treesOf, Tree.cellsAll, ih, cells_zero_isBool]

theorem membersOf_keys (ms : List (Bytes × JV)) : (membersOf ms).map Prod.fst = ms.map Prod.fst := by
  induction ms with
  | nil => rfl
  | cons m ms ih => obtain ⟨k, j⟩ := m; simp [membersOf, ih]

theorem overwritten_zero {ms : List (Bytes × JV)} : overwritten (membersOf ms) = 0 ↔
    ∀ a k j b, ms = a ++ (k, j) :: b → k ∈ b.map Prod.fst → j.isBool := by
  induction ms with
  | nil => simp [membersOf, overwritten]
  | cons m ms ih =>
    obtain ⟨k, j⟩ := m
    simp only [membersOf, overwritten, membersOf_keys, Nat.add_eq_zero_iff, ih]
    constructor
    · rintro ⟨h1, h2⟩ a k' j' b e hm
      cases a with
      | nil =>
        simp only [List.nil_append, List.cons.injEq, Prod.mk.injEq] at e
        obtain ⟨⟨rfl, rfl⟩, rfl⟩ := e
        rw [if_pos hm] at h1
        exact cells_zero_isBool.mp h1
      | cons p a =>
        simp only [List.cons_append, List.cons.injEq] at e
        exact h2 a k' j' b e.2 hm
    · intro h
      refine ⟨?_, fun a k' j' b e hm => h ((k, j) :: a) k' j' b (by simp [e]) hm⟩
      split
      · rename_i hm
        exact cells_zero_isBool.mpr (h [] k j ms rfl hm)
      · rfl

theorem lostMembers_zero {ms : List (Bytes × JV)} : lostMembers ms = 0 ↔ ∀ k j, (k, j) ∈ ms → j.lost = 0 := by
  induction ms with
  | nil => simp [lostMembers]
  | cons m ms ih =>
    obtain ⟨k, j⟩ := m
    simp only [lostMembers, Nat.add_eq_zero_iff, ih, List.mem_cons, Prod.mk.injEq]
    constructor
    · rintro ⟨h1, h2⟩ k' j' (⟨rfl, rfl⟩ | hm)
      · exact h1
      · exact h2 k' j' hm
    · intro h
      exact ⟨h k j (.inl ⟨rfl, rfl⟩), fun k' j' hm => h k' j' (.inr hm)⟩

theorem keptTrees_fold : ∀ (ms : List (Bytes × JV)) (o : List Bytes × List Tree), lostMembers ms = 0 → keptTrees o.2 = 0 →
    keptTrees ((membersOf ms).foldl putMember o).2 = 0 := by
  intro ms
  induction ms with
  | nil => intro o _ h; exact h
  | cons m ms ih =>
    obtain ⟨k, j⟩ := m
    rintro ⟨ks, us⟩ h1 h2
    simp only [lostMembers, Nat.add_eq_zero_iff] at h1
    have := keptTrees_put ks us (k, j.tree)
    rw [lost_kept h1.1] at this
    simp only at h2
    exact ih _ h1.2 (by omega)

theorem clean_lost {j : JV} (h : Clean j) : j.lost = 0 := by
  induction h with
  | bool => rfl
  | str => rfl
  | arr h =>
    have := cells_zero_all.mpr h
    simp only [JV.lost, JV.tree, kept_arr, this, cells_zero_elems this]
  | @obj ms _ h2 ih =>
    have h3 := lostMembers_zero.mpr ih
    have h4 := keptTrees_fold ms ([], []) h3 rfl
    simp only [JV.lost, JV.tree, kept_obj, collect, h3, h4, overwritten_zero.mpr h2]

theorem lost_clean : ∀ {j : JV}, j.lost = 0 → Clean j
  | .int z, h => by simp [JV.lost] at h
  | .bool b, _ => .bool
  | .str s, _ => .str
  | .arr js, h => by
    simp only [JV.lost, JV.tree, kept_arr] at h
    exact .arr (cells_zero_all.mp (by omega))
  | .obj ms, h => by
    simp only [JV.lost] at h
    exact .obj (fun k j hm => lost_clean (lostMembers_zero.mp (by omega) k j hm)) (overwritten_zero.mp (by omega))
termination_by j => sizeOf j
decreasing_by
  have := List.sizeOf_lt_of_mem hm
  simp at this ⊢
  omega

theorem clean_iff {j : JV} : Clean j ↔ j.lost = 0 := ⟨clean_lost, lost_clean⟩

/-! ### the whole parser -/

theorem St.init : St Heap.init 0 [] 0 0 := ⟨[], [], 0, Inv.init, rfl, ⟨by simp, by simp, by simp⟩, rfl, rfl, rfl⟩

theorem start {h h0 : Heap} {n a k : Nat} (st : St h n [] a k) (e : exec h [.undef] = .ok h0) : Sim h0 ⟨n + 1, [], n⟩ ⟨[], .undef, a, k⟩ := by
  obtain ⟨h, e', s⟩ := st.undef
  rw [e] at e'
  cases e'
  exact ⟨[], rfl, rfl, s⟩

namespace Abs

/-- other numbers at the start -/
def shift (a k : Nat) (s : Abs) : Abs := { s with a := a + s.a, k := k + s.k }

theorem attach_shifted (a k : Nat) (s : Abs) (x : Tree) : (s.shift a k).attach x = (s.attach x).map (shift a k) := by
  obtain ⟨st, r, a', k'⟩ := s
  match st with
  | [] => simp [attach, shift, Nat.add_assoc]
  | (y, key) :: rest => cases y <;> simp [attach, shift, Nat.add_assoc]

theorem deliver_shifted (a k : Nat) (s : Abs) (x : Tree) : (s.shift a k).deliver x = (s.deliver x).map (shift a k) := by
  simp only [deliver, attach_shifted]
  cases s.attach x <;> simp [shift, Nat.add_assoc]

theorem step_shifted (grow : Nat → Bool) (a k : Nat) (s : Abs) (e : Ev) : (s.shift a k).step grow e = (s.step grow e).map (shift a k) := by
  have end_case : (s.shift a k).end_ = s.end_.map (shift a k) := by
    obtain ⟨st, r, a', k'⟩ := s
    match st with
    | [] => rfl
    | (x, key) :: rest =>
      have := deliver_shifted a k ⟨rest, r, a' + x.cells, k' + x.kept⟩ x
      simp only [shift, ← Nat.add_assoc] at this
      simp only [end_, shift, this]
      cases deliver ⟨rest, r, a' + x.cells, k' + x.kept⟩ x <;> simp [shift, Nat.add_assoc]
  have begin_case : ∀ x : Tree, (s.shift a k).begin_ grow x = (s.begin_ grow x).shift a k := by
    intro x
    by_cases hg : grow s.stack.length <;> simp [begin_, shift, hg, Nat.add_assoc]
  cases e with
  | boolean b => exact deliver_shifted a k s _
  | number t =>
    have := deliver_shifted a k { s with a := s.a + 1 } (.int (Value.s256OfText t))
    simp only [shift, ← Nat.add_assoc] at this
    simpa only [step, shift] using this
  | string x key =>
    cases key with
    | false =>
      have := deliver_shifted a k { s with a := s.a + 1 } (.str x)
      simp only [shift, ← Nat.add_assoc] at this
      simpa only [step, shift] using this
    | true =>
      obtain ⟨st, r, a', k'⟩ := s
      cases st <;> rfl
  | beginArray => simp only [step, begin_case, Option.map_some]
  | beginObject => simp only [step, begin_case, Option.map_some]
  | endArray => exact end_case
  | endObject => exact end_case

theorem run_shifted (grow : Nat → Bool) (a k : Nat) : ∀ (es : List Ev) (s : Abs), (s.shift a k).run grow es = (s.run grow es).map (shift a k) := by
  intro es
  induction es with
  | nil => intro s; rfl
  | cons e es ih =>
    intro s
    simp only [run, step_shifted]
    cases s.step grow e with
    | none => rfl
    | some s => exact ih s

end Abs

theorem parse_at (grow : Nat → Bool) (L : Json.Layout) (s : Bytes) :
    (∃ w t r j a g, s = w ++ (t ++ r) ∧ WS w ∧ JText t j ∧ 2 * a ≤ 3 * (s.length * (s.length + 1)) ∧ ((∀ n, grow n = false) → g = 0) ∧ (j.lost = 0 → g = 0) ∧
      (s.length ≤ 1073643498 → ∃ x, Json.parse L s = .ok ⟨true, x⟩ ∧ (ShortKeys j → Shows x j)) ∧ ∀ {h0 n a0 k0}, St h0 n [] a0 k0 → ∃ h cb, parseAt grow L h0 n s = .ok (h, cb, true) ∧ cb.stack = [] ∧
        St h cb.n [(cb.root, j.tree)] (a0 + a) (k0 + (j.lost + g))) ∨
    (∃ s', 2 * s'.a ≤ 3 * (s.length * (s.length + 1)) ∧ (s.length ≤ 1073643498 → ∃ x, Json.parse L s = .ok ⟨false, x⟩) ∧
      ∀ {h0 n a0 k0}, St h0 n [] a0 k0 → ∃ h cb, parseAt grow L h0 n s = .ok (h, cb, false) ∧ Sim h cb (Abs.shift a0 k0 s')) := by
  have hp := Json.parseValue_post L (s.length + 1) ⟨s, []⟩ (by simp)
  have mono : ∀ n : Nat, n ≤ s.length → n * (n + 1) ≤ s.length * (s.length + 1) := fun n hn => Nat.mul_le_mul hn (by omega)
  cases hv : Json.parseValue L (s.length + 1) ⟨s, []⟩ with
  | ub u => rw [hv] at hp; exact absurd hp id
  | diverge => rw [hv] at hp; exact absurd hp id
  | ok u st =>
    rw [hv] at hp
    obtain ⟨w, t, j, es, hw, ht, he, h1, h2, h3⟩ := hp
    obtain ⟨s2, g, r1, r2, r3, r4, r5, r6⟩ := Abs.ev_abs grow he (s := ⟨[], .undef, 0, 0⟩) rfl
    obtain ⟨c1, c2⟩ := Abs.run_cells es (N := 0) r1 (by simp [Abs.cells, Tree.cellsAll, Tree.cells]) (by simp)
    simp only [List.nil_append] at h2
    refine .inl ⟨w, t, st.it, j, s2.a, g, h1, hw, ht, ?_, r5, fun hl => r6 hl rfl, fun hlen => ?_, ?_⟩
    · have hle : es.length ≤ s.length := by
        have : s.length = w.length + (t.length + st.it.length) := by simpa using congrArg List.length h1
        omega
      have := mono _ hle
      simp only [Nat.zero_add] at c2
      omega
    · have hle : es.length ≤ 1073643498 := by
        have : s.length = w.length + (t.length + st.it.length) := by simpa using congrArg List.length h1
        omega
      obtain ⟨x, hu, hsh, hrun⟩ := Json.evOf_delivers he hle
      exact ⟨x, by unfold Json.parse; rw [hv]; simp only; rw [h2, hrun]; rfl, hsh⟩
    · intro h0 n a0 k0 s0
      obtain ⟨h1, e0, _⟩ := s0.undef
      have rs := Abs.run_shifted grow a0 k0 es ⟨[], .undef, 0, 0⟩
      rw [r1] at rs
      obtain ⟨h', cb', e1, M, m1, m2, S'⟩ := run_sim' es (start s0 e0) rs
      have hM : M = [] := by
        simp only [Abs.shift, r2] at m2
        exact List.map_eq_nil_iff.mp m2.symm
      subst hM
      refine ⟨h', cb', ?_, by simpa using m1, ?_⟩
      · simp only [parseAt, e0, Res.ok_bind, hv, h2, e1]
      · have hk : s2.k = j.lost + g := by simpa [Tree.cells] using r4
        have hr : s2.root = j.tree := r3
        rw [← hk, ← hr]
        exact S'
  | err x st =>
    rw [hv] at hp
    obtain ⟨es, he, h2, h3⟩ := hp
    obtain ⟨s2, r1⟩ := Abs.part_abs grow he ⟨[], .undef, 0, 0⟩
    obtain ⟨c1, c2⟩ := Abs.run_cells es (N := 0) r1 (by simp [Abs.cells, Tree.cellsAll, Tree.cells]) (by simp)
    simp only [List.nil_append] at h2
    refine .inr ⟨s2, ?_, fun hlen => ?_, ?_⟩
    · have := mono _ h3
      simp only [Nat.zero_add] at c2
      omega
    · simp only at h3
      obtain ⟨pushed, hrun⟩ := Json.partOf_run he (by omega)
      exact ⟨.undef, by unfold Json.parse; rw [hv]; simp only; rw [h2, hrun]; rfl⟩
    · intro h0 n a0 k0 s0
      obtain ⟨h1, e0, _⟩ := s0.undef
      have rs := Abs.run_shifted grow a0 k0 es ⟨[], .undef, 0, 0⟩
      rw [r1] at rs
      obtain ⟨h', cb', e1, S'⟩ := run_sim' es (start s0 e0) rs
      exact ⟨h', cb', by simp only [parseAt, e0, Res.ok_bind, hv, h2, e1], S'⟩

theorem shift_zero (s : Abs) : Abs.shift 0 0 s = s := by simp [Abs.shift]

theorem parse_mem (grow : Nat → Bool) (L : Json.Layout) (s : Bytes) :
    (∃ h cb w t r j a g, parseM grow L s = .ok (h, cb, true) ∧ s = w ++ (t ++ r) ∧ WS w ∧ JText t j ∧ cb.stack = [] ∧
      St h cb.n [(cb.root, j.tree)] a (j.lost + g) ∧ 2 * a ≤ 3 * (s.length * (s.length + 1)) ∧ ((∀ n, grow n = false) → g = 0) ∧ (j.lost = 0 → g = 0)) ∨
    (∃ h cb s', parseM grow L s = .ok (h, cb, false) ∧ Sim h cb s' ∧ 2 * s'.a ≤ 3 * (s.length * (s.length + 1))) := by
  rcases parse_at grow L s with ⟨w, t, r, j, a, g, h1, h2, h3, h4, h5, h6, _, h7⟩ | ⟨s', h1, _, h2⟩
  · obtain ⟨h, cb, e, hs, st⟩ := h7 St.init
    exact .inl ⟨h, cb, w, t, r, j, a, g, e, h1, h2, h3, hs, st.cast (by omega) (by omega), h4, h5, h6⟩
  · obtain ⟨h, cb, e, S⟩ := h2 St.init
    rw [shift_zero] at S
    exact .inr ⟨h, cb, s', e, S, h1⟩

theorem parse_mem_text (grow : Nat → Bool) {L : Json.Layout} {w t r : Bytes} {j : JV} (hw : WS w) (ht : JText t j) (hr : (∃ z, j = .int z) → NoDigit r)
    (hL : Json.Reads L j) : ∃ h cb a g, parseM grow L (w ++ (t ++ r)) = .ok (h, cb, true) ∧ cb.stack = [] ∧ St h cb.n [(cb.root, j.tree)] a (j.lost + g) ∧
      ((∀ n, grow n = false) → g = 0) ∧ (j.lost = 0 → g = 0) := by
  obtain ⟨h0, e0, _⟩ := St.init.undef
  have S0 := start St.init e0
  obtain ⟨es, he, hv⟩ := Json.accepts L ht w r [] ((w ++ (t ++ r)).length + 1) hw (by simp; omega) hr hL
  obtain ⟨s2, g, r1, r2, r3, r4, r5, r6⟩ := Abs.ev_abs grow he (s := ⟨[], .undef, 0, 0⟩) rfl
  obtain ⟨h', cb', e1, M, m1, m2, S'⟩ := run_sim' es S0 r1
  have hM : M = [] := by
    rw [r2] at m2
    exact List.map_eq_nil_iff.mp m2.symm
  subst hM
  refine ⟨h', cb', s2.a, g, ?_, by simpa using m1, ?_, r5, fun hl => r6 hl rfl⟩
  · simp only [parseM, parseAt, e0, Res.ok_bind, hv, List.nil_append, e1]
  · have hk : s2.k = j.lost + g := by simpa [Tree.cells] using r4
    have hr : s2.root = j.tree := r3
    rw [← hk, ← hr]
    exact S'

/-! ### members of the tree -/

theorem find_put {ks : List Bytes} {us : List Tree} (hl : ks.length = us.length) (k' : Bytes) (x : Tree) (k : Bytes) :
    (if k ∈ (putMember (ks, us) (k', x)).1 then (putMember (ks, us) (k', x)).2[(putMember (ks, us) (k', x)).1.idxOf k]? else none) =
      if k = k' then some x else if k ∈ ks then us[ks.idxOf k]? else none := by
  unfold putMember
  by_cases hm : k' ∈ ks
  · simp only [hm, if_true]
    by_cases e : k = k'
    · subst e
      have : ks.idxOf k < us.length := hl ▸ List.idxOf_lt_length_of_mem hm
      simp [hm, this]
    · simp only [e, if_false]
      split
      · rename_i hk
        rw [List.getElem?_set_ne]
        intro he
        have h1 := List.getElem_idxOf (List.idxOf_lt_length_of_mem hm)
        have h2 := List.getElem_idxOf (List.idxOf_lt_length_of_mem hk)
        apply e
        rw [← h1, ← h2]
        simp only [he]
      · rfl
  · simp only [hm, if_false]
    by_cases e : k = k'
    · subst e
      simp [List.idxOf_append_of_notMem hm, hl]
    · by_cases hk : k ∈ ks
      · have : ks.idxOf k < us.length := hl ▸ List.idxOf_lt_length_of_mem hk
        simp [hk, e, List.idxOf_append_of_mem hk, List.getElem?_append_left this]
      · simp [hk, e]

theorem find_fold (k : Bytes) : ∀ (ms : List (Bytes × JV)) (o : List Bytes × List Tree), o.1.length = o.2.length ∧ o.1.Nodup →
    (if k ∈ ((membersOf ms).foldl putMember o).1 then ((membersOf ms).foldl putMember o).2[((membersOf ms).foldl putMember o).1.idxOf k]? else none) =
      ((lastMember ms k).map JV.tree).or (if k ∈ o.1 then o.2[o.1.idxOf k]? else none) := by
  intro ms
  induction ms with
  | nil => intro o _; rfl
  | cons m ms ih =>
    obtain ⟨k', j⟩ := m
    rintro ⟨ks, us⟩ h
    have := ih (putMember (ks, us) (k', j.tree)) (put_fits h)
    rw [find_put h.1] at this
    rw [membersOf, List.foldl_cons]
    refine this.trans ?_
    simp only [lastMember, FMap.lookup, List.reverse_cons, List.find?_append]
    cases List.find? (fun kv => decide (kv.1 = k)) ms.reverse with
    | some p => simp
    | none =>
      by_cases e : k' = k
      · subst e; simp
      · simp [e, Ne.symm e]

theorem tree_member (ms : List (Bytes × JV)) (k : Bytes) : (JV.obj ms).tree.get [.mem k] = (lastMember ms k).map JV.tree := by
  have h := get_mem (t := (JV.obj ms).tree) (dst := []) (ks := (collect (membersOf ms)).1) (ts := (collect (membersOf ms)).2) rfl k
  rw [List.nil_append] at h
  rw [h, collect, find_fold k ms ([], []) (by simp)]
  simp

theorem tree_elem (js : List JV) (i : Nat) : (JV.arr js).tree.get [.elem i] = js[i]?.map JV.tree := by
  rw [JV.tree, get_var]
  induction js generalizing i with
  | nil => simp [treesOf]
  | cons j js ih => cases i <;> simp [treesOf, ih]

theorem finish_sim {h : Heap} {cb : Cb} {s : Abs} (S : Sim h cb s) : ∃ h', finishM h cb = .ok h' ∧ St h' cb.n [] s.a (s.k + s.root.kept + Abs.keptAll s.stack) := by
  obtain ⟨M, m1, m2, st⟩ := S
  obtain ⟨h1, e1, s1⟩ := st.destroy
  obtain ⟨h2, e2, s2⟩ := destroyAll_sim M (F := []) (by simpa using s1)
  exact ⟨h2, by simp [finishM, e1, m1, e2], by rw [m2]; exact s2⟩

/-- the lifetime of an `EniBase` whose text was accepted -/
theorem lifetime_run {grow : Nat → Bool} {L : Json.Layout} {s : Bytes} {h : Heap} {cb : Cb} {x : Tree} {a k : Nat} (hp : parseM grow L s = .ok (h, cb, true))
    (hs : cb.stack = []) (st : St h cb.n [(cb.root, x)] a k) :
    ∃ h', lifetime grow L s = .ok h' ∧ St h' (cb.n + 1) [] (a + x.cells) (k + 2 * x.kept) := by
  obtain ⟨h1, e1, s1⟩ := st.undef
  obtain ⟨h2, e2, s2⟩ := s1.assign (j := cb.root) (x := x) (by simp)
  obtain ⟨h3, e3, s3⟩ := (s2.perm (List.Perm.swap _ _ _)).destroy
  obtain ⟨h4, e4, s4⟩ := s3.destroy
  refine ⟨h4, ?_, s4.cast rfl (by simp only [Tree.kept, Tree.cells]; omega)⟩
  simp [lifetime, hp, exec_cons e1, e2, finishM, e3, hs, destroyAll, e4]

end Eni.Owner
