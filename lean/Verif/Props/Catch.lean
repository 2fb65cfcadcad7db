import Verif.Proofs.Catch
import Verif.Props.StringMap
/-! C117: which handlers get the exceptions of the library and what they are told. C118: use of the library before and after `main`. -/
namespace Eni.Props
open Spec Exn

/-- C117, handlers by reference: an exception goes to the first handler whose class is one of those listed for it, or that has no parameter, and
`what()` is its text. (Every list of handlers is of this form or that of `C117_unheard`.) -/
theorem C117_reference {w : Diag → Phase} (hw : ∀ d, w d = .alive) (e : Exc) (pre : List Handler) (h : Handler) (post : List Handler)
    (hp : ∀ g ∈ pre, ¬ hears e g) (hh : hears e h) (hr : byReference h) :
    guarded w e (pre ++ h :: post) = .ok (fateOf pre.length (learns e h)) := by
  obtain ⟨o, ho, ha, ht, -⟩ := accepts_raise hw e
  rw [guarded, ho, Res.ok_bind, dispatch_skip ha pre 0 _ hp, Nat.zero_add]
  cases h with
  | all => rfl
  | ref c => rw [dispatch, if_pos ((ha c).mpr hh), ht]; rfl
  | val c => exact hr.elim

/-- C117, no handler: an exception leaves the `try` block if and only if no handler lists its class. -/
theorem C117_unheard {w : Diag → Phase} (hw : ∀ d, w d = .alive) (e : Exc) (hs : List Handler) :
    guarded w e hs = .ok .escapes ↔ ∀ g ∈ hs, ¬ hears e g := by
  obtain ⟨o, ho, ha, ht, hsl⟩ := accepts_raise hw e
  constructor
  · intro he g hg hh
    have ex : ∃ pre h post, hs = pre ++ h :: post ∧ (∀ g ∈ pre, ¬ hears e g) ∧ hears e h := by
      clear he
      induction hs with
      | nil => cases hg
      | cons x xs ih =>
        rcases Classical.em (hears e x) with hx | hx
        · exact ⟨[], x, xs, rfl, by simp, hx⟩
        · rcases List.mem_cons.mp hg with rfl | hg
          · exact (hx hh).elim
          · obtain ⟨pre, h, post, rfl, h1, h2⟩ := ih hg
            exact ⟨x :: pre, h, post, rfl, by simpa using ⟨hx, h1⟩, h2⟩
    obtain ⟨pre, h, post, rfl, h1, h2⟩ := ex
    rw [guarded, ho, Res.ok_bind, dispatch_skip ha pre 0 _ h1] at he
    cases h with
    | all => simp [dispatch] at he
    | ref c => rw [dispatch, if_pos ((ha c).mpr h2), ht] at he; simp at he
    | val c =>
      rw [dispatch, if_pos ((ha c).mpr h2)] at he
      obtain ⟨p, -, he⟩ := Res.bind_eq_ok.mp he
      obtain ⟨t, -, he⟩ := Res.bind_eq_ok.mp he
      simp at he
  · intro h
    have := dispatch_skip (w := w) ha hs 0 [] h
    rw [guarded, ho, Res.ok_bind, ← List.append_nil hs, this]
    rfl

/-- C117 is false of the code for handlers that copy the exception; exactly: the first one that lists the class is entered with the text of the
exception if its class is one derived from, or equal to, `std::logic_error`; with a text of the standard library if it is another standard class; and
to copy an exception as a class of this library that is not derived from `std::logic_error` is undefined. -/
theorem C117_copies_partial {w : Diag → Phase} (hw : ∀ d, w d = .alive) (e : Exc) (pre : List Handler) (c : Cls) (post : List Handler)
    (hp : ∀ g ∈ pre, ¬ hears e g) (hh : ofKind e c) :
    guarded w e (pre ++ .val c :: post) =
      if c = .exc .noMemory .badAlloc then .ub .uninit
      else if c = .std .exception ∨ c = .std .badAlloc then .ok (.told pre.length .impl)
      else .ok (.told pre.length (excSays e)) := by
  obtain ⟨o, ho, ha, ht, hsl⟩ := accepts_raise hw e
  have h1 := hsl c hh
  have : dispatch w o (0 + pre.length) (.val c :: post) = ((slice c o >>= what w) >>= fun t => .ok (.told (0 + pre.length) t)) := by
    rw [dispatch, if_pos ((ha c).mpr hh)]
    cases slice c o <;> rfl
  rw [guarded, ho, Res.ok_bind, dispatch_skip ha pre 0 _ hp, this, h1, Nat.zero_add]
  rcases c with s | d | ⟨d, s⟩
  · cases s <;> first | (simp [keeps]; done) | (cases e <;> simp [ofKind, excKinds] at hh)
  · exact hh.elim
  · cases e <;> simp only [ofKind, excClass, Option.some.injEq, Prod.mk.injEq, reduceCtorEq] at hh <;> obtain ⟨rfl, rfl⟩ := hh <;> simp [keeps]

/-- C117 is false of the code: no handler that copies the exception is ever told "no memory". -/
theorem C117_copied_memory_false {w : Diag → Phase} (hw : ∀ d, w d = .alive) (c : Cls) (i : Nat) (s : String) :
    guarded w .noMemory [.val c] ≠ .ok (.told i (.lib s)) := by
  rcases Classical.em (ofKind .noMemory c) with h | h
  · have := C117_copies_partial hw .noMemory [] c [] (by simp) h
    rw [List.nil_append] at this
    rw [this]
    split
    · simp
    · split
      · simp
      · rename_i h1 h2
        exfalso
        rcases c with s | d | ⟨d, s⟩
        · cases s <;> simp [ofKind, excKinds] at h h2
        · exact h
        · simp only [ofKind, excClass, Option.some.injEq, Prod.mk.injEq] at h
          obtain ⟨rfl, rfl⟩ := h
          exact h1 rfl
  · have := (C117_unheard hw .noMemory [.val c]).mpr (by simpa [hears] using h)
    rw [this]
    simp

/-- C117, causes can be told apart by their text. -/
theorem C117_distinct {e e' : Exc} {s : String} (h : excText e = some s) (h' : excText e' = some s) : e = e' := by
  cases e <;> cases e' <;> simp [excText] at h h' <;> first | rfl | (exfalso; rw [← h'] at h; simp at h)

/-- C117, vectors: whatever the state of a vector and the memory available, handlers for `std::out_of_range` and `std::bad_alloc` get all exceptions of
its operations. -/
theorem C117_vector {α : Type} {w : Diag → Phase} (hw : ∀ d, w d = .alive) (cfg : Vec.Cfg α) (g : Bool) (s : Vec α × Vec α) (op : VOp α)
    (hs : s.1.size < 2 ^ 64 ∧ s.2.size < 2 ^ 64) (ho : SizeArgs op) :
    (∀ e, Vec.step cfg g s op ≠ .throw e) ∧ ∀ s' e, Vec.step cfg g s op = .ok (s', .exc e) →
      guarded w e [.ref (.std .outOfRange), .ref (.std .badAlloc)] = .ok (.told 0 (.lib "invalid access: index out of bound")) ∨
      guarded w e [.ref (.std .outOfRange), .ref (.std .badAlloc)] = .ok (.told 1 (.lib "no memory")) := by
  obtain ⟨h1, h2⟩ := step_throws cfg g s op hs ho
  refine ⟨h1, fun s' e h => ?_⟩
  rcases h2 s' e h with rfl | rfl
  · exact .inl (C117_reference hw _ [] _ _ (by simp) (by simp [hears, ofKind, excKinds]) trivial)
  · exact .inr (C117_reference hw .noMemory [.ref (.std .outOfRange)] _ [] (by simp [hears, ofKind, excKinds])
      (by simp [hears, ofKind, excKinds]) trivial)

/-- C117, maps: for every history, `at` of a key throws if and only if the key is absent, and a handler for `std::out_of_range` is told so. -/
theorem C117_map {V : Type} {w : Diag → Phase} (hw : ∀ d, w d = .alive) (dflt : V) (size : Nat) (ops : List (SOp V)) (hs : size ≤ 1431524664)
    (hl : ops.length ≤ 1073643498) (hk : ∀ op ∈ ops, (skey op).length ≤ 65535) (k : Bytes) :
    ∃ t, SMap.run dflt (SMap.new size) ops = .ok (t, (sruns dflt [] ops).2) ∧
      (∀ v, SMap.at_ t k = .ok v ↔ (sruns dflt [] ops).1.lookup k = some v) ∧
      (∀ e, SMap.at_ t k = .throw e ↔ (sruns dflt [] ops).1.lookup k = none ∧
        guarded w e [.ref (.std .outOfRange)] = .ok (.told 0 (.lib "invalid access: key does not exist"))) := by
  have key : ∀ e, guarded w e [.ref (.std .outOfRange)] = .ok (.told 0 (.lib "invalid access: key does not exist")) ↔ e = .invalidStringMapKey := by
    intro e
    constructor
    · intro h
      rcases Classical.em (hears e (.ref (.std .outOfRange))) with hh | hh
      · have := C117_reference hw e [] (.ref (.std .outOfRange)) [] (by simp) hh trivial
        rw [List.nil_append] at this
        rw [this] at h
        cases e <;> simp [fateOf, learns, excSays, excText] at h ⊢
      · have := (C117_unheard hw e [.ref (.std .outOfRange)]).mpr (by simpa using hh)
        rw [this] at h
        simp at h
    · rintro rfl
      exact C117_reference hw _ [] _ _ (by simp) (by simp [hears, ofKind, excKinds]) trivial
  obtain ⟨t, h, ha, -⟩ := C11_string_map dflt size ops hs hl hk
  refine ⟨t, h, ?_⟩
  rw [ha k]
  constructor
  · intro v
    cases (sruns dflt [] ops).1.lookup k <;> simp
  · intro e
    rw [key e]
    cases (sruns dflt [] ops).1.lookup k <;> simp [eq_comm]

/-- Handlers in the wrong order: the first one takes the exception from the more special one. -/
example : guarded (fun _ => .alive) .invalidVectorIndex [.ref (.std .badAlloc), .ref (.std .logicError), .ref (.std .outOfRange)] =
    .ok (.told 1 (.lib "invalid access: index out of bound")) := by decide +kernel

/-- The private base cannot be caught. -/
example : guarded (fun _ => .alive) .invalidVectorIndex [.ref (.tag .invalidVectorIndex)] = .ok .escapes := by decide +kernel

/-- Copying as `std::logic_error` keeps the text. -/
example : guarded (fun _ => .alive) .invalidVectorIndex [.val (.std .logicError)] =
    .ok (.told 0 (.lib "invalid access: index out of bound")) := by decide +kernel

/-- An operation that throws. -/
example : Vec.step ⟨4, (0 : Nat), 0, by decide⟩ false (⟨.null, 0, 0⟩, ⟨.null, 0, 0⟩) (.pushBack 7) =
    .ok ((⟨.null, 0, 0⟩, ⟨.null, 0, 0⟩), .exc .noMemory) := by decide +kernel

/-- C118 is false of the code; exactly: a program whose static objects use the library is defined if and only if each of them is initialised after the
strings and the null value that its constructor and its destructor use. Then it sees what it would see in `main`. -/
theorem C118_exact_partial (p : Prog) (hc : Complete p) :
    (Ordered p → exec p = .ok ((allUses p).map shows)) ∧ (¬ Ordered p → ∃ b, exec p = .ub b) := exec_exact p hc

/-- C118, the part that holds: programs that use the library in `main` only. -/
theorem C118_main_partial (p : Prog) (hc : Complete p) (h : ∀ n, SObj.user n ∈ p.order → p.ctor n = [] ∧ p.dtor n = []) :
    exec p = .ok (p.main.map shows) := by
  have ho : Ordered p := by
    intro n hn u hu
    rw [(h n hn).1, (h n hn).2] at hu
    cases hu
  rw [(exec_exact p hc).1 ho]
  have z : ∀ f : Nat → List Use, (∀ n, SObj.user n ∈ p.order → f n = []) → ∀ l : List SObj, (∀ x ∈ l, x ∈ p.order) →
      l.flatMap (userUses f) = [] := by
    intro f hf l hl
    rw [List.flatMap_eq_nil_iff]
    intro x hx
    cases x with
    | user n => exact hf n (hl _ hx)
    | str d => rfl
    | null => rfl
  rw [allUses, z p.ctor (fun n hn => (h n hn).1) _ (fun _ h => h), z p.dtor (fun n hn => (h n hn).2) _ (by simp)]
  simp

/-- C118 is false of the code: a static object that is initialised before the library and uses it, if only in its destructor, makes the program
undefined, whatever else the program does. -/
theorem C118_first_false (p : Prog) (hc : Complete p) (n : Nat) (rest : List SObj) (ho : p.order = .user n :: rest) (u : Use)
    (hu : u ∈ p.ctor n ++ p.dtor n) (hn : needs u ≠ none) : ∃ b, exec p = .ub b := by
  refine (exec_exact p hc).2 fun h => ?_
  obtain ⟨x, hx⟩ := Option.ne_none_iff_exists'.mp hn
  have := (before_iff hc.1 (a := []) (y := .user n) (b := rest) (by simpa using ho) x).mp (h n (by simp [ho]) u hu x hx)
  cases this

/-- All objects of the library. -/
def libObjects : List SObj := [.str .unknown, .str .unimplemented, .str .noMemory, .str .invalidDelegateAssigned, .str .invalidIteratorEmpty,
  .str .invalidStringMapKey, .str .invalidVectorIndex, .str .invalidVectorSize, .null]

/-- A program with two static objects, the second of which looks up a missing key in its constructor and provokes an exception in its destructor: fine
behind the library, … -/
def twoObjects (order : List SObj) : Prog :=
  ⟨order, fun n => if n = 1 then [.missing] else [], fun n => if n = 1 then [.message .invalidVectorIndex] else [], [.message .noMemory]⟩

example : Complete (twoObjects (.user 0 :: libObjects ++ [.user 1])) := by
  refine ⟨by decide +kernel, fun d => by cases d <;> decide +kernel, by decide +kernel⟩

example : exec (twoObjects (.user 0 :: libObjects ++ [.user 1])) = .ok [.value (some 5), .text (.lib "no memory"),
    .text (.lib "invalid access: index out of bound")] := by decide +kernel

/-- … undefined in between: only the null value is missing here. -/
example : exec (twoObjects ([.user 0] ++ libObjects.dropLast ++ [.user 1, .null])) = .ub .uninit := by decide +kernel

end Eni.Props
