import Verif.Proofs.ParserRun
/-!
# What the machine on trees does with the events of a value
-/
namespace Eni.Owner
open Spec
open Json (Ev EvOf EvsOf MsOf PartOf s256OfText_eq)

def keptTrees : List Tree → Nat
  | [] => 0
  | x :: xs => x.kept + keptTrees xs

theorem kept_arr (us : List Tree) : (Tree.arr us).kept = Tree.cellsAll us := by
  simp [Tree.kept, Tree.cells, Tree.released]

theorem kept_obj (ks : List Bytes) (us : List Tree) : (Tree.obj ks us).kept = keptTrees us := by
  have h : ∀ us : List Tree, Tree.cellsAll us = Tree.releasedAll us + keptTrees us := by
    intro us
    induction us with
    | nil => rfl
    | cons u us ih =>
      have := released_le u
      simp only [Tree.cellsAll, Tree.releasedAll, keptTrees, Tree.kept, ih]
      omega
  have := h us
  simp only [Tree.kept, Tree.cells, Tree.released]
  omega

theorem keptTrees_append (us vs : List Tree) : keptTrees (us ++ vs) = keptTrees us + keptTrees vs := by
  induction us with
  | nil => simp [keptTrees]
  | cons u us ih => simp only [List.cons_append, keptTrees, ih]; omega

theorem keptTrees_set_le (us : List Tree) (i : Nat) (x : Tree) : keptTrees (us.set i x) ≤ keptTrees us + x.kept := by
  induction us generalizing i with
  | nil => simp [keptTrees]
  | cons u us ih =>
    cases i with
    | zero => simp only [List.set_cons_zero, keptTrees]; omega
    | succ i =>
      have := ih i
      simp only [List.set_cons_succ, keptTrees]
      omega

theorem keptTrees_put (ks : List Bytes) (us : List Tree) (m : Bytes × Tree) : keptTrees (putMember (ks, us) m).2 ≤ keptTrees us + m.2.kept := by
  unfold putMember
  split
  · exact keptTrees_set_le _ _ _
  · simp [keptTrees_append, keptTrees]

/-- objects lost by overwriting members -/
def over (o : List Bytes × List Tree) : List (Bytes × Tree) → Nat
  | [] => 0
  | m :: ms => oldMember o.1 o.2 m.1 + over (putMember o m) ms

/-- objects of the members of `o` with names in `K` -/
def carried (K : List Bytes) : List Bytes → List Tree → Nat
  | k :: ks, u :: us => (if k ∈ K then u.cells else 0) + carried K ks us
  | _, _ => 0

theorem carried_nil (ks : List Bytes) (us : List Tree) : carried [] ks us = 0 := by
  induction ks generalizing us with
  | nil => simp [carried]
  | cons k ks ih => cases us <;> simp [carried, ih]

theorem carried_absent {k : Bytes} {K : List Bytes} : ∀ {ks : List Bytes} {us : List Tree}, k ∉ ks → carried (k :: K) ks us = carried K ks us := by
  intro ks
  induction ks with
  | nil => intro us _; simp [carried]
  | cons k0 ks ih =>
    intro us h
    simp only [List.mem_cons, not_or] at h
    cases us with
    | nil => simp [carried]
    | cons u us => simp [carried, ih h.2, Ne.symm h.1]

theorem carried_append {K : List Bytes} {k : Bytes} {x : Tree} : ∀ {ks : List Bytes} {us : List Tree}, ks.length = us.length →
    carried K (ks ++ [k]) (us ++ [x]) = carried K ks us + (if k ∈ K then x.cells else 0) := by
  intro ks
  induction ks with
  | nil => intro us h; cases us <;> simp [carried] at h ⊢
  | cons k0 ks ih =>
    intro us h
    cases us with
    | nil => simp at h
    | cons u us =>
      simp only [List.length_cons, Nat.add_right_cancel_iff] at h
      simp only [List.cons_append, carried, ih h]
      omega

theorem carried_put {K : List Bytes} {k : Bytes} {x : Tree} : ∀ {ks : List Bytes} {us : List Tree}, ks.length = us.length → ks.Nodup →
    oldMember ks us k + carried K (putMember (ks, us) (k, x)).1 (putMember (ks, us) (k, x)).2 = carried (k :: K) ks us + (if k ∈ K then x.cells else 0) := by
  intro ks
  induction ks with
  | nil => intro us h _; cases us <;> simp [carried, putMember, oldMember] at h ⊢
  | cons k0 ks ih =>
    intro us h nd
    cases us with
    | nil => simp at h
    | cons u us =>
      simp only [List.length_cons, Nat.add_right_cancel_iff] at h
      obtain ⟨n1, n2⟩ := List.nodup_cons.mp nd
      by_cases e : k = k0
      · subst e
        simp only [putMember, oldMember, List.mem_cons, true_or, if_true, List.idxOf_cons_self, List.set_cons_zero, carried, carried_absent n1,
          List.getElem?_cons_zero]
        omega
      · have := ih h n2
        have e' : k0 ≠ k := Ne.symm e
        by_cases hm : k ∈ ks
        · have hi : (k0 :: ks).idxOf k = ks.idxOf k + 1 := List.idxOf_cons_ne ks e'
          simp only [putMember, oldMember, List.mem_cons, e, e', hm, or_true, false_or, if_true, hi, List.set_cons_succ, carried, List.getElem?_cons_succ] at this ⊢
          omega
        · simp only [putMember, oldMember, List.mem_cons, e, e', hm, or_false, false_or, if_false, List.cons_append, carried] at this ⊢
          omega

theorem put_fits {o : List Bytes × List Tree} {m : Bytes × Tree} (h : o.1.length = o.2.length ∧ o.1.Nodup) :
    (putMember o m).1.length = (putMember o m).2.length ∧ (putMember o m).1.Nodup := by
  unfold putMember
  split
  · simpa using h
  · rename_i hm
    refine ⟨by simp [h.1], List.nodup_append.mpr ⟨h.2, by simp, ?_⟩⟩
    intro a ha b hb
    simp at hb
    subst hb
    exact fun e => hm (e ▸ ha)

theorem over_carried : ∀ (ms : List (Bytes × Tree)) {o : List Bytes × List Tree}, o.1.length = o.2.length ∧ o.1.Nodup →
    over o ms = carried (ms.map Prod.fst) o.1 o.2 + overwritten ms := by
  intro ms
  induction ms with
  | nil => intro o h; simp [over, overwritten, carried_nil]
  | cons m ms ih =>
    obtain ⟨k, x⟩ := m
    rintro ⟨ks, us⟩ h
    have := carried_put (ks := ks) (us := us) (K := ms.map Prod.fst) (k := k) (x := x) h.1 h.2
    simp only [over, ih (put_fits h), overwritten, List.map_cons]
    omega

theorem over_eq (ms : List (Bytes × Tree)) : over ([], []) ms = overwritten ms := by
  rw [over_carried ms (o := ([], [])) (by simp)]
  simp [carried]

theorem lost_kept {j : JV} (h : j.lost = 0) : j.tree.kept = 0 := by
  cases j with
  | int z => simp [JV.lost] at h
  | bool b => rfl
  | str s => rfl
  | arr js => simp only [JV.lost] at h; omega
  | obj ms => simp only [JV.lost] at h; omega

theorem cells_zero_elems {js : List JV} (h : Tree.cellsAll (treesOf js) = 0) : lostElems js = 0 := by
  induction js with
  | nil => rfl
  | cons j js ih =>
    simp only [treesOf, Tree.cellsAll] at h
    simp only [lostElems]
    rw [ih (by omega)]
    cases j <;> simp [JV.tree, Tree.cells, JV.lost] at h ⊢
    
namespace Abs

theorem attach_shift {s s1 : Abs} {t : Tree} (h : s.attach t = some s1) : ∃ d, s1.k = s.k + d ∧ s1.a = s.a + t.cells ∧
    ∀ a k, attach ⟨s.stack, s.root, a, k⟩ t = some ⟨s1.stack, s1.root, a + t.cells, k + d⟩ := by
  obtain ⟨st, r, a, k⟩ := s
  cases st with
  | nil =>
    simp only [attach, Option.some.injEq] at h
    subst h
    exact ⟨_, rfl, rfl, fun _ _ => rfl⟩
  | cons p rest =>
    obtain ⟨y, key⟩ := p
    cases y with
    | obj ks us =>
      simp only [attach, Option.some.injEq] at h
      subst h
      exact ⟨_, rfl, rfl, fun _ _ => rfl⟩
    | arr us =>
      simp only [attach, Option.some.injEq] at h
      subst h
      exact ⟨0, rfl, rfl, fun _ _ => rfl⟩
    | undef => simp [attach] at h
    | bool => simp [attach] at h
    | int => simp [attach] at h
    | str => simp [attach] at h

theorem run_one (grow : Nat → Bool) (s : Abs) (e : Ev) : run grow s [e] = step grow s e := by
  simp only [run]
  cases step grow s e <;> rfl

theorem deliver_eq {s s1 : Abs} {t : Tree} {d : Nat} (h : ∀ a k, attach ⟨s.stack, s.root, a, k⟩ t = some ⟨s1.stack, s1.root, a + t.cells, k + d⟩) (a k : Nat) :
    deliver ⟨s.stack, s.root, a, k⟩ t = some ⟨s1.stack, s1.root, a + t.cells + t.cells, k + d + t.kept⟩ := by
  simp [deliver, h]

/-- `begin_`, with what it loses -/
theorem begin_eq (grow : Nat → Bool) (s : Abs) (x : Tree) : ∃ a g, s.begin_ grow x = ⟨(x, []) :: s.stack, s.root, a, s.k + g⟩ ∧
    ((∀ n, grow n = false) → g = 0) ∧ (keptAll s.stack = 0 → g = 0) := by
  unfold begin_
  split
  · rename_i hg
    exact ⟨_, _, rfl, fun h => by rw [h] at hg; simp at hg, id⟩
  · exact ⟨_, 0, rfl, fun _ => rfl, fun _ => rfl⟩

theorem end_eq {s s0 s1 : Abs} {t : Tree} {d : Nat} {key : Bytes} (h : ∀ a k, attach ⟨s0.stack, s0.root, a, k⟩ t = some ⟨s1.stack, s1.root, a + t.cells, k + d⟩)
    (hs : s.stack = (t, key) :: s0.stack) (hr : s.root = s0.root) : ∃ a, s.end_ = some ⟨s1.stack, s1.root, a, s.k + d + 3 * t.kept⟩ := by
  obtain ⟨st, r, a, k⟩ := s
  simp only at hs hr
  subst hs hr
  refine ⟨a + t.cells + t.cells + t.cells, ?_⟩
  simp only [end_, deliver_eq h, Option.some.injEq, Abs.mk.injEq, true_and]
  omega

set_option maxHeartbeats 800000 in
mutual
theorem ev_abs (grow : Nat → Bool) : ∀ {es : List Ev} {j : JV}, EvOf es j → ∀ {s s1 : Abs}, s.attach j.tree = some s1 →
    ∃ s2 g, s.run grow es = some s2 ∧ s2.stack = s1.stack ∧ s2.root = s1.root ∧ s2.k = s1.k + j.lost + g ∧ ((∀ n, grow n = false) → g = 0) ∧
      (j.lost = 0 → keptAll s.stack = 0 → g = 0)
  | _, _, .boolean (b := b), s, s1, h => by
    obtain ⟨d, h1, h2, h3⟩ := attach_shift h
    refine ⟨_, 0, (run_one grow s _).trans (deliver_eq h3 s.a s.k), rfl, rfl, ?_, fun _ => rfl, fun _ _ => rfl⟩
    simp only [JV.lost, JV.tree, h1]
    rfl
  | _, _, .str (s := x), s, s1, h => by
    obtain ⟨d, h1, h2, h3⟩ := attach_shift h
    refine ⟨_, 0, (run_one grow s _).trans (deliver_eq h3 (s.a + 1) s.k), rfl, rfl, ?_, fun _ => rfl, fun _ _ => rfl⟩
    simp only [JV.lost, JV.tree, h1]
    rfl
  | _, _, .number (t := t) (z := z) hz, s, s1, h => by
    obtain ⟨d, h1, h2, h3⟩ := attach_shift h
    have e : step grow s (.number t) = deliver ⟨s.stack, s.root, s.a + 1, s.k⟩ (JV.int (wrap256 z)).tree := by
      simp only [step, s256OfText_eq hz]
      rfl
    refine ⟨_, 0, ((run_one grow s _).trans e).trans (deliver_eq h3 (s.a + 1) s.k), rfl, rfl, ?_, fun _ => rfl, fun _ _ => rfl⟩
    simp only [JV.lost, JV.tree, h1]
    rfl
  | _, _, .arr (es := es) (js := js) hes, s, s1, h => by
    obtain ⟨d, h1, h2, h3⟩ := attach_shift h
    obtain ⟨a0, g0, b1, b2, b3⟩ := begin_eq grow s (.arr [])
    obtain ⟨s2, g, e1, e2, e3, e4, e5, e6⟩ := evs_abs grow hes (s := ⟨(.arr [], []) :: s.stack, s.root, a0, s.k + g0⟩) rfl
    obtain ⟨a1, c1⟩ := end_eq (s := s2) h3 (by simpa [JV.tree] using e2) e3
    refine ⟨⟨s1.stack, s1.root, a1, s2.k + d + 3 * (JV.arr js).tree.kept⟩, g0 + g, ?_, rfl, rfl, ?_, fun hg => by rw [b2 hg, e5 hg], fun hl hk => ?_⟩
    · simp only [run, step, b1, run_append, e1, Option.bind_some]
      exact (run_one grow s2 .endArray).trans c1
    · have e4' : s2.k = s.k + g0 + lostElems js + g := e4
      simp only [JV.lost, h1, e4']
      omega
    · have hk0 := lost_kept hl
      simp only [JV.tree, kept_arr] at hk0
      rw [b3 hk, e6 (by simpa [Tree.cellsAll] using hk0) hk]
  | _, _, .obj (es := es) (ms := ms) hes, s, s1, h => by
    obtain ⟨d, h1, h2, h3⟩ := attach_shift h
    obtain ⟨a0, g0, b1, b2, b3⟩ := begin_eq grow s (.obj [] [])
    obtain ⟨s2, g, key, e1, e2, e3, e4, e5, e6⟩ := ms_abs grow hes (s := ⟨(.obj [] [], []) :: s.stack, s.root, a0, s.k + g0⟩) rfl
    obtain ⟨a1, c1⟩ := end_eq (s := s2) h3 e2 e3
    refine ⟨⟨s1.stack, s1.root, a1, s2.k + d + 3 * (JV.obj ms).tree.kept⟩, g0 + g, ?_, rfl, rfl, ?_, fun hg => by rw [b2 hg, e5 hg], fun hl hk => ?_⟩
    · simp only [run, step, b1, run_append, e1, Option.bind_some]
      exact (run_one grow s2 .endObject).trans c1
    · have e4' : s2.k = s.k + g0 + lostMembers ms + over ([], []) (membersOf ms) + g := e4
      rw [over_eq] at e4'
      simp only [JV.lost, h1, e4']
      omega
    · simp only [JV.lost] at hl
      rw [b3 hk, e6 (by omega) rfl hk]
theorem evs_abs (grow : Nat → Bool) : ∀ {es : List Ev} {js : List JV}, EvsOf es js → ∀ {s : Abs} {us : List Tree} {key : Bytes} {rest : List (Tree × Bytes)},
    s.stack = (.arr us, key) :: rest → ∃ s2 g, s.run grow es = some s2 ∧ s2.stack = (.arr (us ++ treesOf js), key) :: rest ∧ s2.root = s.root ∧
      s2.k = s.k + lostElems js + g ∧ ((∀ n, grow n = false) → g = 0) ∧ (Tree.cellsAll (us ++ treesOf js) = 0 → keptAll rest = 0 → g = 0)
  | _, _, .nil, s, us, key, rest, h => ⟨s, 0, rfl, by simp [treesOf, h], rfl, by simp [lostElems], fun _ => rfl, fun _ _ => rfl⟩
  | _, _, .cons (es := es) (js := js) (e := e) (j := j) h1 h2, s, us, key, rest, h => by
    have ha : s.attach j.tree = some { s with stack := (.arr (us ++ [j.tree]), key) :: rest, a := s.a + j.tree.cells } := by
      simp [attach, h]
    obtain ⟨s2, g, e1, e2, e3, e4, e5, e6⟩ := ev_abs grow h1 ha
    obtain ⟨s3, g', f1, f2, f3, f4, f5, f6⟩ := evs_abs grow h2 e2
    refine ⟨s3, g + g', by simp [run_append, e1, f1], by simp [f2, treesOf], f3.trans e3, ?_, fun hg => by rw [e5 hg, f5 hg], fun hc hk => ?_⟩
    · simp only [f4, e4, lostElems]
      omega
    · simp only [treesOf, cellsAll_append, Tree.cellsAll] at hc
      have hl : j.lost = 0 := by
        have := cells_zero_elems (js := [j]) (by simp only [treesOf, Tree.cellsAll]; omega)
        simpa [lostElems] using this
      have hk' : keptAll s.stack = 0 := by
        rw [h]
        simp only [keptAll, kept_arr]
        omega
      rw [e6 hl hk', f6 (by simp only [cellsAll_append, Tree.cellsAll]; omega) hk]
theorem ms_abs (grow : Nat → Bool) : ∀ {es : List Ev} {ms : List (Bytes × JV)}, MsOf es ms →
    ∀ {s : Abs} {ks : List Bytes} {us : List Tree} {key : Bytes} {rest : List (Tree × Bytes)}, s.stack = (.obj ks us, key) :: rest →
    ∃ s2 g key', s.run grow es = some s2 ∧
      s2.stack = (.obj ((membersOf ms).foldl putMember (ks, us)).1 ((membersOf ms).foldl putMember (ks, us)).2, key') :: rest ∧ s2.root = s.root ∧
      s2.k = s.k + lostMembers ms + over (ks, us) (membersOf ms) + g ∧ ((∀ n, grow n = false) → g = 0) ∧
      (lostMembers ms = 0 → keptTrees us = 0 → keptAll rest = 0 → g = 0)
  | _, _, .nil, s, ks, us, key, rest, h => ⟨s, 0, key, rfl, by simp [membersOf, h], rfl, by simp [lostMembers, membersOf, over], fun _ => rfl, fun _ _ _ => rfl⟩
  | _, _, .cons (es := es) (ms := ms) (k := k) (e := e) (j := j) h1 h2, s, ks, us, key, rest, h => by
    have ha : attach { s with stack := (.obj ks us, k) :: rest } j.tree =
        some { s with stack := (.obj (putMember (ks, us) (k, j.tree)).1 (putMember (ks, us) (k, j.tree)).2, k) :: rest, a := s.a + j.tree.cells, k := s.k + oldMember ks us k } := by
      simp [attach]
    obtain ⟨s2, g, e1, e2, e3, e4, e5, e6⟩ := ev_abs grow h1 ha
    obtain ⟨s3, g', key', f1, f2, f3, f4, f5, f6⟩ := ms_abs grow h2 e2
    refine ⟨s3, g + g', key', ?_, by simpa [membersOf] using f2, f3.trans e3, ?_, fun hg => by rw [e5 hg, f5 hg], fun hc hu hk => ?_⟩
    · simp only [run, step, h, run_append, e1, Option.bind_some, f1]
    · have f4' : s3.k = s2.k + lostMembers ms + over (putMember (ks, us) (k, j.tree)) (membersOf ms) + g' := f4
      simp only [f4', e4, lostMembers, membersOf, over]
      omega
    · simp only [lostMembers] at hc
      have hk' : keptAll ((Tree.obj ks us, k) :: rest) = 0 := by simp [keptAll, kept_obj, hu, hk]
      have hj : j.lost = 0 := by omega
      have := keptTrees_put ks us (k, j.tree)
      rw [lost_kept hj] at this
      rw [e6 hj hk', f6 (by omega) (by omega) hk]
end

end Abs

end Eni.Owner
