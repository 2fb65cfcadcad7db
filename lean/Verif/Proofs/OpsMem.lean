import Verif.Props.Session
import Verif.Spec.OpsMem
/-!
# An operation in memory and on plain data
-/
namespace Eni.Owner
open Spec Props

/-! ### Keys of a short text -/

theorem body_length {b s : Bytes} (h : StrBody b s) : s.length ≤ b.length := by
  induction h <;> simp only [List.length_nil, List.length_cons] at * <;> omega

theorem short_text {t : Bytes} {j : JV} (h : JText t j) : t.length ≤ 65535 → ShortKeys j := by
  refine JText.rec (motive_1 := fun t j _ => t.length ≤ 65535 → ShortKeys j) (motive_2 := fun t js _ => t.length ≤ 65535 → ∀ j ∈ js, ShortKeys j)
    (motive_3 := fun t ms _ => t.length ≤ 65535 → ∀ k j, (k, j) ∈ ms → k.length < 65536 ∧ ShortKeys j) ?_ ?_ ?_ ?_ ?_ ?_ ?_ ?_ ?_ ?_ ?_ ?_ h
  · exact fun _ => .bool
  · exact fun _ => .bool
  · exact fun _ _ => .int
  · exact fun _ _ => .str
  · exact fun _ _ => .arr (by simp)
  · intro t js _ ih hl
    exact .arr (ih (by simp only [List.length_cons, List.length_append] at hl; omega))
  · exact fun _ _ => .obj (by simp) (by simp)
  · intro t ms _ ih hl
    have := ih (by simp only [List.length_cons, List.length_append] at hl; omega)
    exact .obj (fun k j hk => (this k j hk).1) (fun k j hk => (this k j hk).2)
  · intro w t w' j _ _ _ ih hl x hx
    rw [List.mem_singleton] at hx
    subst hx
    exact ih (by simp only [List.length_append] at hl; omega)
  · intro w t w' j r js _ _ _ _ ih ih' hl x hx
    simp only [List.length_append, List.length_cons] at hl
    rcases List.mem_cons.mp hx with rfl | hx
    · exact ih (by omega)
    · exact ih' (by omega) x hx
  · intro w b k w1 w2 t w3 j _ hb _ _ _ _ ih hl k' j' hx
    have := body_length hb
    simp only [List.length_append, List.length_cons] at hl
    rw [List.mem_singleton] at hx
    cases hx
    exact ⟨by omega, ih (by omega)⟩
  · intro w b k w1 w2 t w3 j r ms _ hb _ _ _ _ _ ih ih' hl k' j' hx
    have := body_length hb
    simp only [List.length_append, List.length_cons] at hl
    rcases List.mem_cons.mp hx with hx | hx
    · cases hx
      exact ⟨by omega, ih (by omega)⟩
    · exact ih' (by omega) k' j' hx

/-- The keys of a text of at most 65535 bytes are short. -/
theorem keysFit_of_short {s : Bytes} (h : (cstr s).length ≤ 65535) : ShortKeyText s := by
  intro w t r j e _ ht
  refine short_text ht ?_
  rw [e] at h
  simp only [List.length_append] at h
  omega

/-! ### The entry points on plain data -/

variable {S : Type}

/-- Both hooks make the same of the same arguments. -/
structure SameHooks (O : OpM S) (H : Base.Hooks S) : Prop where
  parse : ∀ vs, (H.parse H.init vs).2 = (O.parse.runV (.arr vs) >>= fun x => .ok x.2)
  state : ∀ vs st, O.parse.runV (.arr vs) = .ok (st, true) → (H.parse H.init vs).1 = st
  gas : ∀ st, H.gas st = O.gas st
  run : ∀ st, (H.run st []).2 = ((O.run st).1.map Sc.val, (O.run st).2)

theorem pure_arr {O : OpM S} {H : Base.Hooks S} (sh : SameHooks O H) {L : Json.Layout} {s : Bytes} {x : Value} {js : List JV} (hp : Json.parse L (cstr s) = .ok ⟨true, x⟩)
    (hx : Shows x (.arr js)) : Base.opRun H L s = raise asText (expectRun O (.arr js)) ∧ Base.opGas H L s = raise id (expectGas O (.arr js)) := by
  have hv := shows_reads hx O.parse
  cases hx with
  | @arr vs _ hl hi =>
    have hcon : Base.construct H L (cstr s) = .ok ⟨false, false, .arr vs, .arr [], H.init, []⟩ := by
      rw [construct_of hp]; rfl
    rw [Base.opRun, Base.opGas, hcon]
    have h1 := sh.parse vs
    have h2 := sh.state vs
    rw [hv] at h1 h2
    rcases hpar : H.parse H.init vs with ⟨st, rb⟩
    rw [hpar] at h1 h2
    simp only at h1 h2
    simp only [Res.ok_bind, Base.start, Base.getGas, Base.check, Value.toArray, hpar, h1, expectRun, expectGas]
    clear h1
    revert h2
    cases hr : reads (.arr js) O.parse with
    | ok y =>
      obtain ⟨y, b⟩ := y
      intro h2
      cases b with
      | false => exact ⟨rfl, rfl⟩
      | true =>
        have := h2 y rfl
        subst this
        have h3 := sh.run st
        rcases hH : H.run st [] with ⟨st', vs', r'⟩
        rcases hrun : O.run st with ⟨outs, res⟩
        rw [hH, hrun] at h3
        simp only [Prod.mk.injEq] at h3
        obtain ⟨rfl, rfl⟩ := h3
        refine ⟨?_, ?_⟩
        · cases r' with
          | ok b =>
            cases b with
            | false => simp [hH, hrun, raise, asText]
            | true => simp [hH, hrun, raise, asText, (sc_text outs).1]
          | _ => simp [hH, hrun, raise]
        · simp only [Res.ok_bind, if_true, sh.gas]
          cases hg : O.gas st <;> simp [hg, raise]
    | _ => intro _; exact ⟨rfl, rfl⟩

theorem pure_other {H : Base.Hooks S} {L : Json.Layout} {s : Bytes} {x : Value} {j : JV} (hp : Json.parse L (cstr s) = .ok ⟨true, x⟩)
    (hx : Shows x j) (hj : j.ty ≠ .arr) : Base.opRun H L s = .ub .badUnion ∧ Base.opGas H L s = .ub .badUnion := by
  rw [Base.opRun, Base.opGas, construct_of hp]
  cases hx with
  | arr _ _ => exact absurd rfl hj
  | _ => exact ⟨rfl, rfl⟩

theorem pure_reject {H : Base.Hooks S} {L : Json.Layout} {s : Bytes} {x : Value} (hp : Json.parse L (cstr s) = .ok ⟨false, x⟩) :
    Base.opRun H L s = .exit 87 ∧ Base.opGas H L s = .exit 87 := by
  simp [Base.opRun, Base.opGas, Base.construct, hp]

/-! ### Both together -/

theorem outcome_run {O : OpM S} {grow : Nat → Bool} {L : Json.Layout} {l : Left} {s : Bytes} {h : Heap} {cb : Cb} {j : JV} {a k : Nat}
    (hp : parseAt grow L l.h l.n (cstr s) = .ok (h, cb, true)) (hs : cb.stack = []) (st : St h cb.n [(cb.root, j.tree)] a k) (hj : j.ty = .arr) :
    outcome (runAt grow L O l s) = raise asText (expectRun O j) := by
  have h1 := call_sim O (s := s) (l := l) hp hs st hj
  unfold expectRun outcome
  revert h1
  cases hr : reads j O.parse with
  | ok x =>
    obtain ⟨y, b⟩ := x
    cases b with
    | false =>
      rintro ⟨l, e, _⟩
      simp [e, raise, asText]
    | true =>
      rcases hrun : O.run y with ⟨outs, res⟩
      simp only [hrun]
      cases res with
      | ok b =>
        cases b with
        | false =>
          rintro ⟨l, e, _⟩
          simp [e, raise, asText]
        | true =>
          rintro ⟨l, e, _⟩
          simp [e, raise, asText, (sc_text outs).1]
      | throw x =>
        rintro ⟨l, e, _⟩
        simp [e, raise]
      | ub u => intro h1; simp only at h1 ⊢; rw [h1]; rfl
      | diverge => intro h1; simp only at h1 ⊢; rw [h1]; rfl
      | exit c => intro h1; simp only at h1 ⊢; rw [h1]; rfl
  | throw x =>
    rintro ⟨l, e, _⟩
    simp [e, raise]
  | ub u => intro h1; simp only at h1 ⊢; rw [h1]; rfl
  | diverge => intro h1; simp only at h1 ⊢; rw [h1]; rfl
  | exit c => intro h1; simp only at h1 ⊢; rw [h1]; rfl

theorem outcome_gas {O : OpM S} {grow : Nat → Bool} {L : Json.Layout} {l : Left} {s : Bytes} {h : Heap} {cb : Cb} {j : JV} {a k : Nat}
    (hp : parseAt grow L l.h l.n (cstr s) = .ok (h, cb, true)) (hs : cb.stack = []) (st : St h cb.n [(cb.root, j.tree)] a k) (hj : j.ty = .arr) :
    outcome (gasAt grow L O l s) = raise id (expectGas O j) := by
  have h2 := gas_sim O (s := s) (l := l) hp hs st hj
  unfold expectGas outcome
  revert h2
  cases hr : (reads j O.parse >>= fun x => if x.2 then O.gas x.1 else .ok 1500) with
  | ok x =>
    rintro ⟨l, e, _⟩
    simp [e, raise]
  | throw x =>
    rintro ⟨l, e, _⟩
    simp [e, raise]
  | ub u => intro h2; simp only at h2 ⊢; rw [h2]; rfl
  | diverge => intro h2; simp only at h2 ⊢; rw [h2]; rfl
  | exit c => intro h2; simp only at h2 ⊢; rw [h2]; rfl

theorem same_idle {O : OpM S} {H : Base.Hooks S} (sh : SameHooks O H) (grow : Nat → Bool) (L : Json.Layout) {l : Left} {k : Nat} (i : Idle l k) (s : Bytes)
    (hlen : (cstr s).length ≤ 1073643498) (hk : ShortKeyText s) :
    outcome (runAt grow L O l s) = Base.opRun H L s ∧ outcome (gasAt grow L O l s) = Base.opGas H L s := by
  obtain ⟨a0, st0⟩ := i
  rcases parse_at grow L (cstr s) with ⟨w, t, r, j, a, d, h1, h2, h3, h4, h5, h6, hp, h7⟩ | ⟨s', h1, hp, h2⟩
  · obtain ⟨x, hx, hsh⟩ := hp hlen
    have hsh := hsh (hk w t r j h1 h2 h3)
    obtain ⟨h, cb, e, hs, st⟩ := h7 st0
    by_cases hj : j.ty = .arr
    · rw [outcome_run e hs st hj, outcome_gas e hs st hj]
      obtain ⟨js, rfl⟩ : ∃ js, j = .arr js := by cases j <;> simp_all [JV.ty]
      obtain ⟨g1, g2⟩ := pure_arr sh hx hsh
      exact ⟨g1.symm, g2.symm⟩
    · obtain ⟨g1, g2⟩ := pure_other (H := H) hx hsh hj
      obtain ⟨h1, a1, e1, s1⟩ := construct_sim e hs st
      have hc := check_sim O (n := cb.n) (j := j) s1 (by simp)
      rw [if_neg hj] at hc
      rw [g1, g2]
      simp [outcome, runAt, gasAt, e1, hc, raise]
  · obtain ⟨x, hx⟩ := hp hlen
    obtain ⟨h, cb, e, _⟩ := h2 st0
    obtain ⟨g1, g2⟩ := pure_reject (H := H) hx
    rw [g1, g2]
    simp [outcome, runAt, gasAt, constructAt, e, raise]

theorem same_in_memory {O : OpM S} {H : Base.Hooks S} (sh : SameHooks O H) : SameInMemory O H := by
  intro grow L cs l os s hs hlen hk
  obtain ⟨k, i⟩ := (session_idle grow L cs Idle.init).1 hs
  exact same_idle sh grow L i s hlen hk

/-! ### The operations -/

/-- Reading an argument as a string or as a number, on plain data. -/
theorem runV_str {α} (vs : List Value) (i : Nat) (hi : i < 18446744073709551616) (k : Bytes → Rd α) :
    (Rd.str [.elem i] k).runV (.arr vs) = (Value.argAt vs (i : Int) >>= Value.toStr) >>= fun s => (k s).runV (.arr vs) := by
  have : ((i : Int) % 18446744073709551616).toNat = i := by omega
  simp only [Rd.runV, fetchV, Value.argAt, this]
  cases vs[i]? with
  | none => rfl
  | some v => cases v <;> rfl

theorem runV_int {α} (vs : List Value) (i : Nat) (hi : i < 18446744073709551616) (k : Int → Rd α) :
    (Rd.int [.elem i] k).runV (.arr vs) = (Value.argAt vs (i : Int) >>= Value.toInteger) >>= fun s => (k s).runV (.arr vs) := by
  have : ((i : Int) % 18446744073709551616).toNat = i := by omega
  simp only [Rd.runV, fetchV, Value.argAt, this]
  cases vs[i]? with
  | none => rfl
  | some v => cases v <;> rfl

theorem reverse_same : SameHooks reverseM Reverse.op where
  parse vs := by
    rw [show reverseM.parse = .str [.elem 0] _ from rfl, runV_str vs 0 (by decide)]
    simp only [Reverse.op, Nat.cast_zero]
    cases Value.argAt vs 0 >>= Value.toStr <;> rfl
  state vs st := by
    rw [show reverseM.parse = .str [.elem 0] _ from rfl, runV_str vs 0 (by decide)]
    simp only [Reverse.op, Nat.cast_zero]
    cases Value.argAt vs 0 >>= Value.toStr <;> simp [Rd.runV]
  gas _ := rfl
  run _ := rfl

theorem scrypt_same (A : Sha) (E : Scrypt.Env) : SameHooks (scryptM A E) (Scrypt.op A E) where
  parse vs := by
    rw [show (scryptM A E).parse = .str [.elem 0] _ from rfl, runV_str vs 0 (by decide)]
    simp only [Scrypt.op, Nat.cast_zero]
    cases Value.argAt vs 0 >>= Value.toStr <;> rfl
  state vs st := by
    rw [show (scryptM A E).parse = .str [.elem 0] _ from rfl, runV_str vs 0 (by decide)]
    simp only [Scrypt.op, Nat.cast_zero]
    cases Value.argAt vs 0 >>= Value.toStr <;> simp [Rd.runV]
    intro h _ _; exact h
  gas _ := rfl
  run s := by
    simp only [Scrypt.op, scryptM]
    generalize (if s.length % 2 ≠ 0 then 48 :: s else s) = s'
    cases Scrypt.unhex s' (List.replicate 80 0) with
    | ok i => simp only [Res.ok_bind]; cases Scrypt.core A i E.hash E.B E.X E.pad <;> rfl
    | _ => rfl

theorem encrypt_same (pem : Bytes → Option Crypto.Key) : SameHooks (encryptM pem) (Crypto.encryptOp pem) where
  parse vs := by
    rw [show (encryptM pem).parse = .str [.elem 0] _ from rfl, runV_str vs 0 (by decide)]
    simp only [Crypto.encryptOp, Nat.cast_zero]
    cases Value.argAt vs 0 >>= Value.toStr with
    | ok t =>
      simp only [Res.ok_bind]
      cases pem (cstr t) with
      | none => rfl
      | some k =>
        simp only
        rw [runV_str vs 1 (by decide)]
        simp only [Nat.cast_one]
        cases Value.argAt vs 1 >>= Value.toStr <;> rfl
    | _ => rfl
  state vs st := by
    rw [show (encryptM pem).parse = .str [.elem 0] _ from rfl, runV_str vs 0 (by decide)]
    simp only [Crypto.encryptOp, Nat.cast_zero]
    cases Value.argAt vs 0 >>= Value.toStr with
    | ok t =>
      simp only [Res.ok_bind]
      cases pem (cstr t) with
      | none => simp [Rd.runV]
      | some k =>
        simp only
        rw [runV_str vs 1 (by decide)]
        simp only [Nat.cast_one]
        cases Value.argAt vs 1 >>= Value.toStr <;> simp [Rd.runV]
    | _ => simp
  gas _ := rfl
  run o := by
    simp only [Crypto.encryptOp, encryptM]
    cases o.key with
    | none => rfl
    | some k =>
      simp only
      cases Crypto.pubEncrypt k o.msg <;> rfl

theorem decrypt_same (pem : Bytes → Option Crypto.Key) : SameHooks (decryptM pem) (Crypto.decryptOp pem) where
  parse vs := by
    rw [show (decryptM pem).parse = .str [.elem 0] _ from rfl, runV_str vs 0 (by decide)]
    simp only [Crypto.decryptOp, Nat.cast_zero]
    cases Value.argAt vs 0 >>= Value.toStr with
    | ok t =>
      simp only [Res.ok_bind]
      cases pem (cstr t) with
      | none => rfl
      | some k =>
        simp only
        rw [runV_str vs 1 (by decide)]
        simp only [Nat.cast_one]
        cases Value.argAt vs 1 >>= Value.toStr with
        | ok h =>
          simp only [Res.ok_bind, Rd.runV]
          cases Crypto.hex2str h with
          | ok o => cases o <;> rfl
          | _ => rfl
        | _ => rfl
    | _ => rfl
  state vs st := by
    rw [show (decryptM pem).parse = .str [.elem 0] _ from rfl, runV_str vs 0 (by decide)]
    simp only [Crypto.decryptOp, Nat.cast_zero]
    cases Value.argAt vs 0 >>= Value.toStr with
    | ok t =>
      simp only [Res.ok_bind]
      cases pem (cstr t) with
      | none => simp [Rd.runV]
      | some k =>
        simp only
        rw [runV_str vs 1 (by decide)]
        simp only [Nat.cast_one]
        cases Value.argAt vs 1 >>= Value.toStr with
        | ok h =>
          simp only [Res.ok_bind, Rd.runV]
          cases Crypto.hex2str h with
          | ok o => cases o <;> simp
          | _ => simp
        | _ => simp
    | _ => simp
  gas _ := rfl
  run o := by
    simp only [Crypto.decryptOp, decryptM]
    cases o.key with
    | none => rfl
    | some k =>
      simp only
      cases Crypto.privDecrypt k o.msg with
      | ok x => cases x <;> rfl
      | _ => rfl

/-- The parse hook in memory is `parseArgs`. -/
theorem json_args (E : JsonTool.Env) (vs : List Value) : (jsonM E).parse.runV (.arr vs) =
    (JsonTool.parseArgs E vs >>= fun x => match x with | some s => .ok (s, true) | none => .ok ([], false)) := by
  rw [show (jsonM E).parse = .str [.elem 0] _ from rfl, runV_str vs 0 (by decide)]
  simp only [JsonTool.parseArgs, Nat.cast_zero]
  cases Value.argAt vs 0 >>= Value.toStr with
  | ok op =>
    simp only [Res.ok_bind]
    rw [runV_str vs 1 (by decide)]
    simp only [Nat.cast_one]
    cases Value.argAt vs 1 >>= Value.toStr with
    | ok data =>
      simp only [Res.ok_bind]
      rw [runV_int vs 2 (by decide)]
      simp only [Nat.cast_ofNat]
      cases Value.argAt vs 2 >>= Value.toInteger with
      | ok b =>
        simp only [Res.ok_bind]
        rw [runV_int vs 3 (by decide)]
        simp only [Nat.cast_ofNat]
        cases Value.argAt vs 3 >>= Value.toInteger with
        | ok e =>
          simp only [Res.ok_bind]
          split
          · simp only [setStr, Rd.runV]
            cases JsonTool.subString data (E.conv b) (E.conv e) with
            | ok raw => simp only [Res.ok_bind]; cases JsonTool.parseString E.L raw <;> rfl
            | _ => rfl
          · split
            · simp only [setStr, Rd.runV]
              cases JsonTool.parseArray E data (E.conv b) (E.conv e) <;> rfl
            · split
              · rw [runV_int vs 4 (by decide)]
                simp only [Nat.cast_ofNat]
                cases Value.argAt vs 4 >>= Value.toInteger with
                | ok i =>
                  simp only [setStr, Rd.runV, Res.ok_bind]
                  cases JsonTool.arrayGet E data (E.conv b) (E.conv e) (E.conv i) <;> rfl
                | _ => rfl
              · split
                · rw [runV_str vs 4 (by decide)]
                  simp only [Nat.cast_ofNat]
                  cases Value.argAt vs 4 >>= Value.toStr with
                  | ok k =>
                    simp only [setStr, Rd.runV, Res.ok_bind]
                    cases JsonTool.objectGet E data (E.conv b) (E.conv e) k <;> rfl
                  | _ => rfl
                · rfl
        | _ => rfl
      | _ => rfl
    | _ => rfl
  | _ => rfl

theorem json_same (E : JsonTool.Env) : SameHooks (jsonM E) (JsonTool.op E) where
  parse vs := by
    rw [json_args]
    simp only [JsonTool.op]
    cases JsonTool.parseArgs E vs with
    | ok x => cases x <;> rfl
    | _ => rfl
  state vs st := by
    rw [json_args]
    simp only [JsonTool.op]
    cases JsonTool.parseArgs E vs with
    | ok x => cases x <;> simp
    | _ => simp
  gas _ := rfl
  run _ := rfl

end Eni.Owner
