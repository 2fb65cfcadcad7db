import Verif.Spec.Catch
import Verif.Model.Vector
/-! Lemmas on exceptions and static objects. -/
namespace Eni.Exn
open Spec

theorem accepts_raise {w : Diag → Phase} (hw : ∀ d, w d = .alive) (e : Exc) : ∃ o, raise w e = .ok o ∧
    (∀ c, accepts c o.cls = true ↔ ofKind e c) ∧ what w o = .ok (excSays e) ∧
    (∀ c, ofKind e c → (slice c o >>= what w) =
      match c with
      | .exc _ s => if keeps s then .ok (excSays e) else .ub .uninit
      | .std s => if keeps s then .ok (excSays e) else .ok .impl
      | .tag _ => .ok .impl) := by
  cases e <;>
  · refine ⟨_, by simp only [raise, construct, keeps, access, hw]; rfl, fun c => ?_, by simp [what, access, hw, keeps]; rfl, fun c hc => ?_⟩
    · rcases c with s | d | ⟨d, s⟩
      · cases s <;> simp +decide [ofKind, excKinds]
      · cases d <;> simp +decide [ofKind]
      · cases d <;> cases s <;> simp +decide [ofKind, excClass]
    · rcases c with s | d | ⟨d, s⟩
      · cases s <;> first | (simp [ofKind, excKinds] at hc; done) | simp [slice, what, keeps, excSays, excText, errStr]
      · exact hc.elim
      · simp only [ofKind, excClass, Option.some.injEq, Prod.mk.injEq, reduceCtorEq] at hc
        try (obtain ⟨rfl, rfl⟩ := hc; simp [slice, what, keeps, access, hw, excSays, excText, errStr])

theorem dispatch_skip {w : Diag → Phase} {o : Obj} {e : Exc} (ha : ∀ c, accepts c o.cls = true ↔ ofKind e c) :
    ∀ (pre : List Handler) (i : Nat) (hs : List Handler), (∀ g ∈ pre, ¬ hears e g) →
      dispatch w o i (pre ++ hs) = dispatch w o (i + pre.length) hs := by
  intro pre
  induction pre with
  | nil => intros; rfl
  | cons g pre ih =>
    intro i hs h
    have hg := h g (by simp)
    have h' : ∀ g ∈ pre, ¬ hears e g := fun x hx => h x (by simp [hx])
    cases g with
    | all => exact (hg trivial).elim
    | ref c =>
      have : ¬ accepts c o.cls = true := fun hc => hg ((ha c).mp hc)
      rw [List.cons_append, dispatch, if_neg this, ih _ _ h', List.length_cons]
      congr 1; omega
    | val c =>
      have : ¬ accepts c o.cls = true := fun hc => hg ((ha c).mp hc)
      rw [List.cons_append, dispatch, if_neg this, ih _ _ h', List.length_cons]
      congr 1; omega

/-! ### Static objects -/

theorem use_ok {w : SObj → Phase} {u : Use} (h : ∀ x, needs u = some x → w x = .alive) : use w u = .ok (shows u) := by
  cases u with
  | missing => simp [use, h .null rfl, access, shows, Value.nullValue]
  | message e => cases e <;> simp [needs, excClass] at h <;>
      simp [use, raise, construct, what, keeps, access, h, shows, excSays, excText, errStr]

theorem use_bad {w : SObj → Phase} {u : Use} {x : SObj} (h : needs u = some x) (hx : w x ≠ .alive) : ∃ b, use w u = .ub b := by
  have acc : ∃ b, access (w x) = .ub b := by
    cases hp : w x
    · exact ⟨_, rfl⟩
    · exact (hx hp).elim
    · exact ⟨_, rfl⟩
  obtain ⟨b, hb⟩ := acc
  refine ⟨b, ?_⟩
  cases u with
  | missing => cases h; simp [use, hb]
  | message e => cases e <;> simp [needs, excClass] at h <;> subst h <;>
      simp [use, raise, construct, what, keeps, hb]

theorem uses_ok {w : SObj → Phase} : ∀ {us : List Use}, (∀ u ∈ us, ∀ x, needs u = some x → w x = .alive) → uses w us = .ok (us.map shows)
  | [], _ => rfl
  | u :: us, h => by
    rw [uses, use_ok (h u (by simp)), Res.ok_bind, uses_ok (fun v hv => h v (by simp [hv]))]; rfl

theorem uses_bad {w : SObj → Phase} : ∀ {us : List Use} {u : Use} {x : SObj}, u ∈ us → needs u = some x → w x ≠ .alive →
    ∃ b, uses w us = .ub b
  | v :: us, u, x, hu, hn, hx => by
    rcases Classical.em (∀ y, needs v = some y → w y = .alive) with h | h
    · rcases List.mem_cons.mp hu with rfl | hu
      · exact (hx (h x hn)).elim
      · obtain ⟨b, hb⟩ := uses_bad hu hn hx
        exact ⟨b, by rw [uses, use_ok h, Res.ok_bind, hb]; rfl⟩
    · have : ∃ y, needs v = some y ∧ w y ≠ .alive :=
        Classical.byContradiction fun hh => h fun y hy => Classical.byContradiction fun hw => hh ⟨y, hy, hw⟩
      obtain ⟨y, hy, hw⟩ := this
      obtain ⟨b, hb⟩ := use_bad hy hw
      exact ⟨b, by rw [uses, hb]; rfl⟩

/-- Every use of `us` needs only objects of `l`. -/
def Within (us : List Use) (l : List SObj) : Prop := ∀ u ∈ us, ∀ x, needs u = some x → x ∈ l

theorem uses_within {w : SObj → Phase} {l : List SObj} (hw : ∀ y, w y = .alive ↔ y ∈ l) (us : List Use) :
    (Within us l → uses w us = .ok (us.map shows)) ∧ (¬ Within us l → ∃ b, uses w us = .ub b) := by
  refine ⟨fun h => uses_ok fun u hu x hx => (hw x).mpr (h u hu x hx), fun h => ?_⟩
  have : ∃ u ∈ us, ∃ x, needs u = some x ∧ x ∉ l :=
    Classical.byContradiction fun hh => h fun u hu x hx => Classical.byContradiction fun hl => hh ⟨u, hu, x, hx, hl⟩
  obtain ⟨u, hu, x, hx, hl⟩ := this
  exact uses_bad hu hx fun ha => hl ((hw x).mp ha)

theorem start_cons (p : Prog) (w : SObj → Phase) (x : SObj) (xs : List SObj) : start p w (x :: xs) =
    (uses w (userUses p.ctor x) >>= fun a => start p (set w x .alive) xs >>= fun r => .ok (r.1, a ++ r.2)) := by cases x <;> rfl

theorem stop_cons (p : Prog) (w : SObj → Phase) (x : SObj) (xs : List SObj) : stop p w (x :: xs) =
    (uses w (userUses p.dtor x) >>= fun a => stop p (set w x .dead) xs >>= fun b => .ok (a ++ b)) := by cases x <;> rfl

theorem start_exact (p : Prog) : ∀ (xs pre : List SObj) (w : SObj → Phase), (pre ++ xs).Nodup → (∀ y, w y = .alive ↔ y ∈ pre) →
    ((∀ a x b, xs = a ++ x :: b → Within (userUses p.ctor x) (pre ++ a)) →
      ∃ w', start p w xs = .ok (w', (xs.flatMap (userUses p.ctor)).map shows) ∧ ∀ y, w' y = .alive ↔ y ∈ pre ++ xs) ∧
    ((¬ ∀ a x b, xs = a ++ x :: b → Within (userUses p.ctor x) (pre ++ a)) → ∃ b, start p w xs = .ub b)
  | [], pre, w, _, hw => ⟨fun _ => ⟨w, rfl, by simpa using hw⟩, fun h => (h (by simp)).elim⟩
  | x :: xs, pre, w, nd, hw => by
    have hw' : ∀ y, set w x .alive y = .alive ↔ y ∈ pre ++ [x] := by
      intro y
      by_cases hy : y = x
      · simp [set, hy]
      · simp [set, hy, hw]
    obtain ⟨ih1, ih2⟩ := start_exact p xs (pre ++ [x]) (set w x .alive) (by simpa using nd) hw'
    obtain ⟨u1, u2⟩ := uses_within hw (userUses p.ctor x)
    have key : (∀ a y b, x :: xs = a ++ y :: b → Within (userUses p.ctor y) (pre ++ a)) ↔
        Within (userUses p.ctor x) pre ∧ ∀ a y b, xs = a ++ y :: b → Within (userUses p.ctor y) (pre ++ [x] ++ a) := by
      constructor
      · intro h
        exact ⟨by simpa using h [] x xs rfl, fun a y b e => by simpa using h (x :: a) y b (by simp [e])⟩
      · rintro ⟨h1, h2⟩ a y b e
        cases a with
        | nil => simp at e; obtain ⟨rfl, rfl⟩ := e; simpa using h1
        | cons c a =>
          simp only [List.cons_append, List.cons.injEq] at e
          obtain ⟨rfl, e⟩ := e
          simpa using h2 a y b e
    rw [key]
    constructor
    · rintro ⟨h1, h2⟩
      obtain ⟨w', e, hw''⟩ := ih1 h2
      refine ⟨w', ?_, by simpa using hw''⟩
      rw [start_cons, u1 h1, Res.ok_bind, e, Res.ok_bind]
      simp
    · intro h
      rw [start_cons]
      by_cases h1 : Within (userUses p.ctor x) pre
      · obtain ⟨b, hb⟩ := ih2 fun h2 => h ⟨h1, h2⟩
        exact ⟨b, by rw [u1 h1, Res.ok_bind, hb]; rfl⟩
      · obtain ⟨b, hb⟩ := u2 h1
        exact ⟨b, by rw [hb]; rfl⟩

theorem stop_exact (p : Prog) : ∀ (r : List SObj) (w : SObj → Phase), r.Nodup → (∀ y, w y = .alive ↔ y ∈ r) →
    ((∀ a x b, r = a ++ x :: b → Within (userUses p.dtor x) b) → stop p w r = .ok ((r.flatMap (userUses p.dtor)).map shows)) ∧
    ((¬ ∀ a x b, r = a ++ x :: b → Within (userUses p.dtor x) b) → ∃ b, stop p w r = .ub b)
  | [], w, _, hw => ⟨fun _ => rfl, fun h => (h (by simp)).elim⟩
  | x :: r, w, nd, hw => by
    obtain ⟨nx, nd'⟩ := List.nodup_cons.mp nd
    have hw' : ∀ y, set w x .dead y = .alive ↔ y ∈ r := by
      intro y
      by_cases hy : y = x
      · subst hy; simp [set, nx]
      · simp [set, hy, hw]
    obtain ⟨ih1, ih2⟩ := stop_exact p r (set w x .dead) nd' hw'
    obtain ⟨u1, u2⟩ := uses_within hw (userUses p.dtor x)
    have own : Within (userUses p.dtor x) (x :: r) ↔ Within (userUses p.dtor x) r := by
      refine ⟨fun h u hu y hy => ?_, fun h u hu y hy => List.mem_cons_of_mem _ (h u hu y hy)⟩
      rcases List.mem_cons.mp (h u hu y hy) with rfl | hm
      · cases y with
        | user n => cases u <;> simp [needs] at hy; rename_i e; cases e <;> simp [excClass] at hy
        | null => simp [userUses] at hu
        | str d => simp [userUses] at hu
      · exact hm
    have key : (∀ a y b, x :: r = a ++ y :: b → Within (userUses p.dtor y) b) ↔
        Within (userUses p.dtor x) r ∧ ∀ a y b, r = a ++ y :: b → Within (userUses p.dtor y) b := by
      constructor
      · intro h
        exact ⟨h [] x r rfl, fun a y b e => h (x :: a) y b (by simp [e])⟩
      · rintro ⟨h1, h2⟩ a y b e
        cases a with
        | nil => simp at e; obtain ⟨rfl, rfl⟩ := e; exact h1
        | cons c a =>
          simp only [List.cons_append, List.cons.injEq] at e
          exact h2 a y b e.2
    rw [key]
    constructor
    · rintro ⟨h1, h2⟩
      rw [stop_cons, u1 (own.mpr h1), Res.ok_bind, ih1 h2, Res.ok_bind]
      simp
    · intro h
      rw [stop_cons]
      by_cases h1 : Within (userUses p.dtor x) r
      · obtain ⟨b, hb⟩ := ih2 fun h2 => h ⟨h1, h2⟩
        exact ⟨b, by rw [u1 (own.mpr h1), Res.ok_bind, hb]; rfl⟩
      · obtain ⟨b, hb⟩ := u2 (fun hh => h1 (own.mp hh))
        exact ⟨b, by rw [hb]; rfl⟩

theorem before_iff {l : List SObj} (nd : l.Nodup) {a b : List SObj} {y : SObj} (e : l = a ++ y :: b) (x : SObj) : Before l x y ↔ x ∈ a := by
  constructor
  · rintro ⟨a', b', c', e'⟩
    subst e
    have e2 : a ++ y :: b = (a' ++ x :: b') ++ y :: c' := by simpa using e'
    obtain ⟨nda, ndb, dis⟩ := List.nodup_append.mp nd
    have hy : y ∉ a := fun h => dis y h y (by simp) rfl
    have hy' : y ∉ a' ++ x :: b' := by
      rw [e2] at nd
      obtain ⟨-, -, d⟩ := List.nodup_append.mp nd
      exact fun h => d y h y (by simp) rfl
    rcases List.append_eq_append_iff.mp e2 with ⟨c, h1, h2⟩ | ⟨c, h1, h2⟩
    · cases c with
      | nil => rw [List.append_nil] at h1; simp [← h1]
      | cons z c =>
        simp only [List.cons_append, List.cons.injEq] at h2
        exact (hy' (by rw [h1, h2.1]; simp)).elim
    · rw [h1]; simp
  · intro h
    obtain ⟨s, t, rfl⟩ := List.append_of_mem h
    exact ⟨s, t, b, by rw [e]⟩

theorem exec_exact (p : Prog) (hc : Complete p) :
    (Ordered p → exec p = .ok ((allUses p).map shows)) ∧ (¬ Ordered p → ∃ b, exec p = .ub b) := by
  obtain ⟨nd, hs, hn⟩ := hc
  obtain ⟨s1, s2⟩ := start_exact p p.order [] (fun _ => .raw) (by simpa using nd) (by simp)
  have ord : Ordered p ↔ (∀ a x b, p.order = a ++ x :: b → Within (userUses p.ctor x) ([] ++ a)) ∧
      (∀ a x b, p.order.reverse = a ++ x :: b → Within (userUses p.dtor x) b) := by
    constructor
    · intro h
      constructor
      · intro a x b e u hu y hy
        cases x with
        | user n =>
          exact (before_iff nd e y).mp (h n (by rw [e]; simp) u (by simp only [userUses] at hu; simp [hu]) y hy)
        | str d => simp [userUses] at hu
        | null => simp [userUses] at hu
      · intro a x b e u hu y hy
        have e' : p.order = b.reverse ++ x :: a.reverse := by
          rw [← List.reverse_reverse p.order, e]; simp
        cases x with
        | user n =>
          have := (before_iff nd e' y).mp (h n (by rw [e']; simp) u (by simp only [userUses] at hu; simp [hu]) y hy)
          simpa using this
        | str d => simp [userUses] at hu
        | null => simp [userUses] at hu
    · rintro ⟨h1, h2⟩ n hn u hu y hy
      obtain ⟨a, b, e⟩ := List.append_of_mem hn
      rw [before_iff nd e]
      rcases List.mem_append.mp hu with hu | hu
      · simpa using h1 a (.user n) b e u hu y hy
      · have := h2 b.reverse (.user n) a.reverse (by rw [e]; simp) u hu y hy
        simpa using this
  rw [ord]
  have mainOk : ∀ w : SObj → Phase, (∀ y, w y = .alive ↔ y ∈ [] ++ p.order) → uses w p.main = .ok (p.main.map shows) := by
    intro w hw
    refine uses_ok fun u _ x hx => (hw x).mpr ?_
    cases u with
    | missing => cases hx; simpa using hn
    | message e => cases e <;> simp [needs, excClass] at hx <;> subst hx <;> simpa using hs _
  constructor
  · rintro ⟨h1, h2⟩
    obtain ⟨w', e, hw'⟩ := s1 h1
    obtain ⟨t1, -⟩ := stop_exact p p.order.reverse w' ((List.reverse_perm p.order).nodup_iff.mpr nd) (by simpa using hw')
    rw [exec, e, Res.ok_bind]
    simp only []
    rw [mainOk w' hw', Res.ok_bind, t1 h2, Res.ok_bind]
    simp [allUses]
  · intro h
    by_cases h1 : ∀ a x b, p.order = a ++ x :: b → Within (userUses p.ctor x) ([] ++ a)
    · obtain ⟨w', e, hw'⟩ := s1 h1
      obtain ⟨-, t2⟩ := stop_exact p p.order.reverse w' ((List.reverse_perm p.order).nodup_iff.mpr nd) (by simpa using hw')
      obtain ⟨b, hb⟩ := t2 fun h2 => h ⟨h1, h2⟩
      refine ⟨b, ?_⟩
      rw [exec, e, Res.ok_bind]
      simp only []
      rw [mainOk w' hw', Res.ok_bind, hb]; rfl
    · obtain ⟨b, hb⟩ := s2 h1
      exact ⟨b, by rw [exec, hb]; rfl⟩

/-! ### What the containers throw -/

end Eni.Exn

namespace Eni

/-- A call on a vector ends with no other exception than those of `P`. -/
def VThrows {α β : Type} (P : Exc → Prop) (x : Res (Vec α × Ret β)) : Prop := (∀ e, x ≠ .throw e) ∧ ∀ v e, x = .ok (v, .exc e) → P e

namespace VThrows
variable {α β γ : Type} {P : Exc → Prop}

theorem ret (v : Vec α) (b : β) : VThrows P (Vec.ret v b) := ⟨by simp [Vec.ret], by simp [Vec.ret]⟩
theorem exc {v : Vec α} {e : Exc} (h : P e) : VThrows P (Vec.throw v e : Res (Vec α × Ret β)) :=
  ⟨by simp [Vec.throw], by simp only [Vec.throw]; rintro _ _ ⟨⟩; exact h⟩
theorem ub (u : UB) : VThrows P (.ub u : Res (Vec α × Ret β)) := ⟨by simp, by simp⟩

theorem andThen {x : Res (Vec α × Ret β)} {f : Vec α → β → Res (Vec α × Ret γ)} (hx : VThrows P x) (hf : ∀ v b, VThrows P (f v b)) :
    VThrows P (Vec.andThen x f) := by
  rcases x with ⟨v, b | e⟩ | e | u | _ | c
  · exact hf v b
  · exact ⟨by simp [Vec.andThen], by simp only [Vec.andThen]; rintro _ _ ⟨⟩; exact hx.2 v e rfl⟩
  · exact (hx.1 e rfl).elim
  all_goals exact ⟨by simp [Vec.andThen], by simp [Vec.andThen]⟩

theorem bind {δ : Type} {x : Res δ} {f : δ → Res (Vec α × Ret β)} (hx : ∀ e, x ≠ .throw e) (hf : ∀ d, VThrows P (f d)) : VThrows P (x >>= f) := by
  cases x with
  | ok d => exact hf d
  | throw e => exact (hx e rfl).elim
  | ub u => exact ⟨by simp, by simp⟩
  | diverge => exact ⟨by simp, by simp⟩
  | exit c => exact ⟨by simp, by simp⟩

theorem readCell (d : VData α) (i : Nat) (e : Exc) : Vec.readCell d i ≠ .throw e := by
  unfold Vec.readCell; repeat' split
  all_goals simp

theorem store (d : VData α) (i : Nat) (xs : List (Option α)) (e : Exc) : Vec.store d i xs ≠ .throw e := by
  unfold Vec.store; repeat' split
  all_goals simp

theorem readRange (d : VData α) (i j : Nat) (e : Exc) : Vec.readRange d i j ≠ .throw e := by
  unfold Vec.readRange; repeat' split
  all_goals simp

theorem readArg (v : Vec α) (m : Bool) (a : VArg α) (e : Exc) : Vec.readArg v m a ≠ .throw e := by
  cases a <;> unfold Vec.readArg
  · simp
  · cases m
    · exact readCell _ _ e
    · simp

theorem growLoop (n : Nat) (e : Exc) : ∀ f t, Vec.growLoop n f t ≠ .throw e := by
  intro f
  induction f with
  | zero => intro t; simp [Vec.growLoop]
  | succ f ih =>
    intro t
    unfold Vec.growLoop
    repeat' split
    all_goals first | exact ih _ | simp

theorem realloc (cfg : Vec.Cfg α) (g : Bool) (d : VData α) (n : Nat) (e : Exc) : Vec.realloc cfg g d n ≠ .throw e := by
  unfold Vec.realloc; repeat' split
  all_goals simp

variable (hm : P .noMemory)
include hm

theorem reserve (cfg : Vec.Cfg α) (g : Bool) (v : Vec α) (n : Nat) (hn : n < 18446744073709551616) : VThrows P (Vec.reserve cfg g v n) := by
  unfold Vec.reserve
  split
  · exact ret _ _
  · rw [if_neg (by simp only [Vec.maxSize]; omega)]
    refine bind (growLoop n · _ _) fun t => bind (realloc cfg g _ _) fun r => ?_
    rcases r with ⟨_ | d, d'⟩
    · exact exc hm
    · exact ret _ _

theorem resizeA (cfg : Vec.Cfg α) (g : Bool) (v : Vec α) (n : Nat) (a : VArg α) (hn : n < 18446744073709551616) : VThrows P (Vec.resizeA cfg g v n a) := by
  refine andThen (reserve hm cfg g v n hn) fun v m => ?_
  split
  · exact bind (readArg _ _ _) fun _ => bind (store _ _ _) fun _ => ret _ _
  · exact ret _ _

theorem assignRange (cfg : Vec.Cfg α) (g : Bool) (v : Vec α) (xs : List (Option α)) (hn : xs.length < 18446744073709551616) :
    VThrows P (Vec.assignRange cfg g v xs) :=
  andThen (resizeA hm cfg g v _ _ hn) fun v m => bind (store _ _ _) fun _ => ret _ _

end VThrows

theorem readRange_length {α : Type} {d : VData α} {n : Nat} {xs : List (Option α)} (h : Vec.readRange d 0 n = .ok xs) : xs.length = n := by
  unfold Vec.readRange at h
  split at h
  · split at h
    · cases h; simp; omega
    · simp at h
  · split at h
    · simp at h
    · simp at h
    · split at h
      · cases h; simp; omega
      · simp at h

theorem report_throws {α β : Type} {P : Exc → Prop} {f : β → VRet α} {w : Vec α} {x : Res (Vec α × Ret β)} (h : VThrows P x)
    (hf : ∀ b e, f b ≠ .exc e) : (∀ e, Vec.report f w x ≠ .throw e) ∧ ∀ s e, Vec.report f w x = .ok (s, .exc e) → P e := by
  rcases x with ⟨v, b | e⟩ | e | u | _ | c
  · refine ⟨by simp [Vec.report], fun s e => ?_⟩
    simp only [Vec.report]
    intro h; injection h with h; injection h with _ h
    exact (hf b e h).elim
  · refine ⟨by simp [Vec.report], fun s e' => ?_⟩
    simp only [Vec.report]
    rintro ⟨⟩
    exact h.2 v e rfl
  · exact (h.1 e rfl).elim
  all_goals exact ⟨by simp [Vec.report], by simp [Vec.report]⟩

/-- The exceptions of vectors. -/
theorem step_throws {α : Type} (cfg : Vec.Cfg α) (g : Bool) (s : Vec α × Vec α) (op : VOp α) (hs : s.1.size < 2 ^ 64 ∧ s.2.size < 2 ^ 64)
    (ho : Spec.SizeArgs op) : (∀ e, Vec.step cfg g s op ≠ .throw e) ∧
      ∀ s' e, Vec.step cfg g s op = .ok (s', .exc e) → e = .invalidVectorIndex ∨ e = .noMemory := by
  have W : ∀ n, w64 n < 18446744073709551616 := fun n => Nat.mod_lt _ (by decide)
  have hm : (fun e => e = Exc.invalidVectorIndex ∨ e = Exc.noMemory) Exc.noMemory := .inr rfl
  have erase : ∀ (v : Vec α) i j, v.size < 2 ^ 64 →
      VThrows (fun e => e = Exc.invalidVectorIndex ∨ e = Exc.noMemory) (Vec.erase cfg v i j) := by
    intro v i j hv
    unfold Vec.erase
    split
    · exact .exc (.inl rfl)
    · refine .bind (VThrows.readRange _ _ _) fun _ => .bind (VThrows.store _ _ _) fun _ =>
        .andThen (VThrows.resizeA hm _ _ _ _ _ (by omega)) fun _ _ => .ret _ _
  have nd : ∀ (b : Bool) (e : Exc), (fun _ => VRet.done : Bool → VRet α) b ≠ .exc e := by simp
  have nu : ∀ (b : Unit) (e : Exc), (fun _ => VRet.done : Unit → VRet α) b ≠ .exc e := by simp
  have nv : ∀ (b : α) (e : Exc), VRet.val b ≠ .exc e := by simp
  obtain ⟨h1, h2⟩ := hs
  cases op <;> simp only [Vec.step] <;> simp only [Spec.SizeArgs] at ho
  case pushBack a =>
    exact report_throws (.andThen (VThrows.reserve hm _ _ _ _ (W _)) fun _ _ => .bind (VThrows.readArg _ _ _) fun _ =>
      .bind (VThrows.store _ _ _) fun _ => .ret _ _) nu
  case popBack => exact report_throws (.bind (VThrows.readCell _ _) fun _ => .ret _ _) nv
  case insertN i n a =>
    refine report_throws ?_ nu
    unfold Vec.insertN
    split
    · exact .exc (.inl rfl)
    · refine .andThen (VThrows.resizeA hm _ _ _ _ _ (W _)) fun v m => ?_
      split
      · exact .ub _
      · refine .bind (VThrows.readRange _ _ _) fun _ => .bind (VThrows.store _ _ _) fun _ => ?_
        dsimp only
        split
        · exact .ret _ _
        · exact .bind (VThrows.readArg _ _ _) fun _ => .bind (VThrows.store _ _ _) fun _ => .ret _ _
  case insertRange i xs =>
    refine report_throws ?_ nu
    unfold Vec.insertRange
    split
    · exact .exc (.inl rfl)
    · refine .andThen (VThrows.resizeA hm _ _ _ _ _ (W _)) fun v m => ?_
      split
      · exact .ub _
      · exact .bind (VThrows.readRange _ _ _) fun _ => .bind (VThrows.store _ _ _) fun _ => .bind (VThrows.store _ _ _) fun _ => .ret _ _
  case erase i j => exact report_throws (erase _ _ _ h1) nu
  case erase1 i => exact report_throws (erase _ _ _ h1) nu
  case resize n => exact report_throws (VThrows.resizeA hm _ _ _ _ _ ho) nd
  case resizeA n a => exact report_throws (VThrows.resizeA hm _ _ _ _ _ ho) nd
  case reserve n => exact report_throws (VThrows.reserve hm _ _ _ _ ho) nd
  case assignN n a =>
    refine report_throws (.andThen (VThrows.resizeA hm _ _ _ _ _ ho) fun v m => ?_) nu
    split
    · exact .ret _ _
    · exact .bind (VThrows.readArg _ _ _) fun _ => .bind (VThrows.store _ _ _) fun _ => .ret _ _
  case assignRange xs => exact report_throws (VThrows.assignRange hm _ _ _ _ (by simpa using ho)) nu
  case assignSelf =>
    refine report_throws (.andThen (VThrows.resizeA hm _ _ _ _ _ h1) fun v m => ?_) nu
    split
    · exact .ub _
    · exact .bind (VThrows.readRange _ _ _) fun _ => .bind (VThrows.store _ _ _) fun _ => .ret _ _
  case clear =>
    refine report_throws ?_ nu
    unfold Vec.clear
    split
    · exact .ub _
    · exact .ret _ _
  case at_ i =>
    refine report_throws ?_ nv
    unfold Vec.at_
    split
    · exact .exc (.inl rfl)
    · exact .bind (VThrows.readCell _ _) fun _ => .ret _ _
  case index i =>
    have := VThrows.readCell s.1.data i
    cases h : Vec.index s.1 i <;> simp [Vec.index] at h ⊢
    exact this _ h
  case size => simp
  case swap => simp
  case assignVec =>
    refine report_throws ?_ nu
    unfold Vec.assignVec
    cases h : Vec.readRange s.2.data 0 s.2.size with
    | ok xs => exact VThrows.assignRange hm _ _ _ _ (by rw [readRange_length h]; exact h2)
    | throw e => exact (VThrows.readRange _ _ _ e h).elim
    | ub u => exact .ub u
    | diverge => exact ⟨by simp, by simp⟩
    | exit c => exact ⟨by simp, by simp⟩
  case copy =>
    have a := VThrows.readRange s.1.data 0 s.1.size
    unfold Vec.copy
    cases h : Vec.readRange s.1.data 0 s.1.size with
    | ok xs =>
      have b := VThrows.store (Vec.calloc cfg true s.1.size) 0 xs
      cases h' : Vec.store (Vec.calloc cfg true s.1.size) 0 xs <;> first | exact (b _ h').elim | simp [h']
    | throw e => exact (a e h).elim
    | ub u => simp
    | diverge => simp
    | exit c => simp

end Eni
