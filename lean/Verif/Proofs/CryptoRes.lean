import Verif.Spec.RsaRes
import Verif.Proofs.EniBase
/-!
# Ledgers of RSA programs and of sessions with an operation
-/
namespace Eni.Crypto
open Spec Base

/-! ### Programs -/

/-- Every variable that holds a key has its own, and there are no other keys. -/
structure Owned (w : World) (h : Nat → Bool) : Prop where
  held : ∀ x, (w.vars x).isSome = h x
  live : ∀ x p, w.vars x = some p → p.1 ∈ w.led.keys
  inj : ∀ x y p q, w.vars x = some p → w.vars y = some q → p.1 = q.1 → x = y
  all : ∀ i ∈ w.led.keys, ∃ x k, w.vars x = some (i, k)
  nodup : w.led.keys.Nodup
  fresh : ∀ i ∈ w.led.keys, i < w.led.next

theorem Owned.empty : Owned World.empty (fun _ => false) := by
  constructor <;> simp [World.empty, Ledger.empty]

theorem crypt_ok {f : Fn} {l l' : Ledger} {p : Option Ptr} {m : Bytes} {r : Option Bytes} (h : crypt f l p m = .ok (l', r)) :
    ∃ i k, p = some (i, k) ∧ i ∈ l.keys ∧ l' = { l with bufs := k.size :: l.bufs } := by
  cases p with
  | none => cases h
  | some p =>
    obtain ⟨i, k⟩ := p
    refine ⟨i, k, rfl, ?_⟩
    simp only [crypt] at h
    split at h
    · next hi =>
      cases f <;> obtain ⟨a, h1, h2⟩ := Res.bind_eq_ok.mp h <;> cases h2 <;> exact ⟨hi, rfl⟩
    · cases h

/-- The only thing that can go wrong in a call with a key that is alive. -/
theorem crypt_live {f : Fn} {l : Ledger} {i : Nat} {k : Key} {m : Bytes} (hi : i ∈ l.keys) :
    (∃ r, crypt f l (some (i, k)) m = .ok ({ l with bufs := k.size :: l.bufs }, r)) ∨ crypt f l (some (i, k)) m = .ub .outOfBounds := by
  have hd : ∀ e, (∃ r, decryptWith k e m = .ok r) ∨ decryptWith k e m = .ub .outOfBounds := by
    intro e
    unfold decryptWith
    cases rawDecrypt k e m with
    | none => exact .inl ⟨_, rfl⟩
    | some b => by_cases h0 : 0 ∈ b <;> simp [h0]
  simp only [crypt, hi, if_true]
  cases f with
  | pubEncrypt => exact .inl ⟨_, rfl⟩
  | privEncrypt => exact .inl ⟨_, rfl⟩
  | pubDecrypt =>
    rcases hd k.e with ⟨r, h⟩ | h
    · exact .inl ⟨r, by simp [pubDecrypt, h]⟩
    · exact .inr (by simp [pubDecrypt, h])
  | privDecrypt =>
    rcases hd k.d with ⟨r, h⟩ | h
    · exact .inl ⟨r, by simp [privDecrypt, h]⟩
    · exact .inr (by simp [privDecrypt, h])

theorem Owned.bufs {w : World} {h : Nat → Bool} (o : Owned w h) (b : List Nat) : Owned { w with led := { w.led with bufs := b } } h :=
  ⟨o.held, o.live, o.inj, o.all, o.nodup, o.fresh⟩

/-- One statement of a careful program. -/
theorem Owned.exec {pub prv : Bytes → Option Key} {w : World} {h : Nat → Bool} (o : Owned w h) {c : Cmd} {cs : List Cmd}
    (hc : Careful pub prv h (c :: cs)) :
    (∃ w', exec pub prv w c = .ok w' ∧ Owned w' (holds pub prv h c)) ∨ (exec pub prv w c = .ub .outOfBounds ∧ encryptsOrDecrypts c = true) := by
  obtain ⟨hc, _⟩ := hc
  cases c with
  | create priv x bio t =>
    left
    simp only at hc
    have hx : w.vars x = none := by
      have := o.held x
      rw [hc] at this
      simpa using this
    have hne : ∀ y p, w.vars y = some p → y ≠ x := by
      rintro y p hy rfl
      rw [hx] at hy
      cases hy
    -- nothing is obtained but perhaps a BIO
    have hnone : ∀ n, holds pub prv h (.create priv x bio t) = h → Owned ⟨setVar w.vars x none, { w.led with bios := n }⟩ h := by
      intro n _
      have hv : setVar w.vars x none = w.vars := by
        funext y
        by_cases hy : y = x
        · subst hy; simp [setVar, hx]
        · simp [setVar, hy]
      rw [hv]
      exact ⟨o.held, o.live, o.inj, o.all, o.nodup, o.fresh⟩
    simp only [Crypto.exec, create]
    cases bio with
    | false =>
      have hh : holds pub prv h (.create priv x false t) = h := by
        funext y
        by_cases hy : y = x
        · subst hy; simp [holds, hc]
        · simp [holds, hy]
      refine ⟨_, rfl, ?_⟩
      rw [hh]
      exact hnone w.led.bios hh
    | true =>
      simp only [if_true]
      cases hp : (if priv = true then prv else pub) (cstr t) with
      | none =>
        have hh : holds pub prv h (.create priv x true t) = h := by
          funext y
          by_cases hy : y = x
          · subst hy; simp [holds, hc, hp]
          · simp [holds, hy]
        refine ⟨_, rfl, ?_⟩
        rw [hh]
        exact hnone _ hh
      | some k =>
        refine ⟨_, rfl, ?_⟩
        have hfr : ∀ y p, w.vars y = some p → p.1 ≠ w.led.next := by
          intro y p hy he
          exact absurd (o.fresh _ (o.live y p hy)) (by omega)
        constructor
        · intro y
          by_cases hy : y = x
          · subst hy; simp [setVar, holds, hp]
          · simp [setVar, holds, hy, o.held y]
        · intro y p hy
          by_cases hyx : y = x
          · subst hyx
            simp [setVar] at hy
            subst hy
            simp
          · simp only [setVar, hyx, if_false] at hy
            exact List.mem_cons_of_mem _ (o.live y p hy)
        · intro y z p q hy hz he
          by_cases hyx : y = x <;> by_cases hzx : z = x
          · rw [hyx, hzx]
          · exfalso
            simp only [setVar, hyx, if_true, Option.some.injEq] at hy
            simp only [setVar, hzx, if_false] at hz
            subst hy
            exact hfr z q hz he.symm
          · exfalso
            simp only [setVar, hzx, if_true, Option.some.injEq] at hz
            simp only [setVar, hyx, if_false] at hy
            subst hz
            exact hfr y p hy he
          · simp only [setVar, hyx, hzx, if_false] at hy hz
            exact o.inj y z p q hy hz he
        · intro i hi
          rcases List.mem_cons.mp hi with rfl | hi
          · exact ⟨x, k, by simp [setVar]⟩
          · obtain ⟨y, k', hy⟩ := o.all i hi
            exact ⟨y, k', by simp [setVar, hne y _ hy, hy]⟩
        · exact List.nodup_cons.mpr ⟨fun hm => absurd (o.fresh _ hm) (by simp), o.nodup⟩
        · intro i hi
          rcases List.mem_cons.mp hi with rfl | hi
          · simp
          · have := o.fresh i hi
            simp only
            omega
  | destroy x =>
    left
    cases hx : w.vars x with
    | none =>
      refine ⟨⟨setVar w.vars x none, w.led⟩, by simp [Crypto.exec, destroy, hx], ?_⟩
      have hv : setVar w.vars x none = w.vars := by
        funext y
        by_cases hy : y = x
        · subst hy; simp [setVar, hx]
        · simp [setVar, hy]
      have hh : holds pub prv h (.destroy x) = h := by
        funext y
        by_cases hy : y = x
        · subst hy; simp [holds, ← o.held y, hx]
        · simp [holds, hy]
      rw [hv, hh]
      exact o
    | some p =>
      have hl := o.live x p hx
      refine ⟨⟨setVar w.vars x none, { w.led with keys := w.led.keys.erase p.1 }⟩, by simp [Crypto.exec, destroy, hx, hl], ?_⟩
      have hother : ∀ y q, setVar w.vars x none y = some q → y ≠ x ∧ w.vars y = some q := by
        intro y q hy
        by_cases hyx : y = x
        · simp [setVar, hyx] at hy
        · simp only [setVar, hyx, if_false] at hy
          exact ⟨hyx, hy⟩
      constructor
      · intro y
        by_cases hy : y = x
        · subst hy; simp [setVar, holds]
        · simp [setVar, holds, hy, o.held y]
      · intro y q hy
        obtain ⟨hyx, hy⟩ := hother y q hy
        have hne : q.1 ≠ p.1 := fun he => hyx (o.inj y x q p hy hx he)
        exact (List.mem_erase_of_ne hne).mpr (o.live y q hy)
      · intro y z q r hy hz he
        exact o.inj y z q r (hother y q hy).2 (hother z r hz).2 he
      · intro i hi
        have hm := (o.nodup.mem_erase_iff).mp hi
        obtain ⟨y, k, hy⟩ := o.all i hm.2
        refine ⟨y, k, ?_⟩
        have hyx : y ≠ x := by
          rintro rfl
          rw [hy] at hx
          cases hx
          exact hm.1 rfl
        simp [setVar, hyx, hy]
      · exact o.nodup.erase _
      · intro i hi
        exact o.fresh i (List.mem_of_mem_erase hi)
  | crypt f x m =>
    simp only at hc
    obtain ⟨⟨i, k⟩, hx⟩ : ∃ p, w.vars x = some p := by
      have := o.held x
      rw [hc] at this
      exact Option.isSome_iff_exists.mp this
    rcases crypt_live (f := f) (k := k) (m := m) (o.live x _ hx) with ⟨r, hr⟩ | hr
    · exact .inl ⟨{ w with led := { w.led with bufs := k.size :: w.led.bufs } }, by simp [Crypto.exec, hx, hr], o.bufs _⟩
    · exact .inr ⟨by simp [Crypto.exec, hx, hr], rfl⟩
  | copy y x => exact absurd hc id

/-- A careful program. -/
theorem Owned.execAll {pub prv : Bytes → Option Key} : ∀ (cs : List Cmd) {w : World} {h : Nat → Bool}, Owned w h → Careful pub prv h cs →
    (∃ w', execAll pub prv w cs = .ok w' ∧ Owned w' (holdsAll pub prv h cs)) ∨
      (execAll pub prv w cs = .ub .outOfBounds ∧ ∃ c ∈ cs, encryptsOrDecrypts c = true) := by
  intro cs
  induction cs with
  | nil => intro w h o _; exact .inl ⟨w, rfl, o⟩
  | cons c cs ih =>
    intro w h o hc
    rcases o.exec hc with ⟨w', h1, h2⟩ | ⟨h1, h2⟩
    · rcases ih h2 hc.2 with ⟨w'', h3, h4⟩ | ⟨h3, c', hm, h4⟩
      · exact .inl ⟨w'', by simp [Crypto.execAll, h1, h3], h4⟩
      · exact .inr ⟨by simp [Crypto.execAll, h1, h3], c', List.mem_cons_of_mem _ hm, h4⟩
    · exact .inr ⟨by simp [Crypto.execAll, h1], c, by simp, h2⟩

/-- What every program leaves behind. -/
theorem execAll_counts {pub prv : Bytes → Option Key} : ∀ (cs : List Cmd) {w w' : World}, execAll pub prv w cs = .ok w' →
    w'.led.bios = w.led.bios + (cs.filter opensBio).length ∧ w'.led.bufs.length = w.led.bufs.length + (cs.filter encryptsOrDecrypts).length := by
  intro cs
  induction cs with
  | nil => intro w w' h; cases h; simp
  | cons c cs ih =>
    intro w w' h
    obtain ⟨w1, h1, h2⟩ := Res.bind_eq_ok.mp h
    obtain ⟨e1, e2⟩ := ih h2
    rw [e1, e2]
    cases c with
    | create priv x bio t =>
      simp only [exec, create] at h1
      cases bio with
      | false => cases h1; simp [opensBio, encryptsOrDecrypts]
      | true =>
        simp only [if_true] at h1
        cases hp : (if priv = true then prv else pub) (cstr t) with
        | none => rw [hp] at h1; cases h1; clear ih h h2; constructor <;> simp only [List.filter_cons, opensBio, encryptsOrDecrypts, List.length_cons, if_true, Bool.false_eq_true, if_false] <;> omega
        | some k => rw [hp] at h1; cases h1; clear ih h h2; constructor <;> simp only [List.filter_cons, opensBio, encryptsOrDecrypts, List.length_cons, if_true, Bool.false_eq_true, if_false] <;> omega
    | destroy x =>
      obtain ⟨l, h3, h4⟩ := Res.bind_eq_ok.mp h1
      cases h4
      have : l.bios = w.led.bios ∧ l.bufs = w.led.bufs := by
        cases hx : w.vars x with
        | none => rw [hx] at h3; cases h3; exact ⟨rfl, rfl⟩
        | some p =>
          rw [hx] at h3
          simp only [destroy] at h3
          split at h3
          · cases h3; exact ⟨rfl, rfl⟩
          · cases h3
      simp [opensBio, encryptsOrDecrypts, this]
    | crypt f x m =>
      obtain ⟨⟨l, r⟩, h3, h4⟩ := Res.bind_eq_ok.mp h1
      cases h4
      obtain ⟨i, k, _, _, rfl⟩ := crypt_ok h3
      clear ih h h2; constructor <;> simp only [List.filter_cons, opensBio, encryptsOrDecrypts, List.length_cons, if_true, Bool.false_eq_true, if_false] <;> omega
    | copy y x => cases h1; simp [opensBio, encryptsOrDecrypts]

/-! ### Sessions -/

/-- An invariant of the members and of the log, `J` holding once the arguments were accepted. -/
theorem session_inv {S : Type} {H : Hooks S} {vs : List Value} {I : S → List HookCall → Prop} {J : S → Prop}
    (hp : ∀ st calls, I st calls → I (H.parse st vs).1 (calls ++ [.parse (H.parse st vs).2]))
    (ha : ∀ st, (H.parse st vs).2 = .ok true → J (H.parse st vs).1)
    (hg : ∀ st calls, I st calls → I st (calls ++ [.gas]))
    (hr : ∀ st calls ret, J st → I st calls → goesOn (H.run st ret).2.2 = true → J (H.run st ret).1 ∧ I (H.run st ret).1 (calls ++ [.run]))
    (cs : List Call) : ∀ o : Obj S, o.args = .arr vs → (∃ ret, o.ret = .arr ret) → (o.parsed = true → o.success = true → J o.st) → I o.st o.calls →
      (∀ r ∈ (session H o cs).2, goesOn r = true) → I (session H o cs).1.st (session H o cs).1.calls := by
  -- `check`
  have hck : ∀ o : Obj S, o.args = .arr vs → (∃ ret, o.ret = .arr ret) → (o.parsed = true → o.success = true → J o.st) → I o.st o.calls →
      (check H o).1.args = .arr vs ∧ (∃ ret, (check H o).1.ret = .arr ret) ∧ ((check H o).1.parsed = true → (check H o).1.success = true → J (check H o).1.st) ∧
      I (check H o).1.st (check H o).1.calls ∧ ((check H o).2 = .ok true → (check H o).1.parsed = true ∧ (check H o).1.success = true) := by
    intro o h1 hret h2 h3
    cases hpar : o.parsed with
    | true =>
      rw [check_parsed hpar]
      exact ⟨h1, hret, h2, h3, fun h => ⟨hpar, by simpa using h⟩⟩
    | false =>
      have hta : o.args.toArray = .ok vs := by rw [h1]; rfl
      by_cases hn : ∃ b, (H.parse o.st vs).2 = .ok b
      · obtain ⟨b, hb⟩ := hn
        rw [check_ok hpar hta (Prod.ext rfl hb : H.parse o.st vs = (_, .ok b))]
        refine ⟨h1, hret, ?_, ?_, fun h => ⟨rfl, by simpa using h⟩⟩
        · intro _ hs
          simp only at hs
          subst hs
          exact ha _ hb
        · have := hp o.st o.calls h3
          rw [hb] at this
          exact this
      · have hn' : ∀ b, (H.parse o.st vs).2 ≠ .ok b := fun b e => hn ⟨b, e⟩
        rw [check_fail hpar hta (rfl : H.parse o.st vs = (_, _)) hn']
        exact ⟨h1, hret, fun h => absurd h (by simp [hpar]), hp o.st o.calls h3, fun h => absurd h (hn' _)⟩
  induction cs with
  | nil => intro o _ _ _ h _; exact h
  | cons c cs ih =>
    intro o h1 hret h2 h3 hall
    obtain ⟨k1, ⟨ret, k5⟩, k2, k3, k4⟩ := hck o h1 hret h2 h3
    -- after the call
    have key : (call H o c).1.args = .arr vs ∧ (∃ ret, (call H o c).1.ret = .arr ret) ∧
        (goesOn (call H o c).2 = true → ((call H o c).1.parsed = true → (call H o c).1.success = true → J (call H o c).1.st) ∧ I (call H o c).1.st (call H o c).1.calls) := by
      rcases hc : check H o with ⟨o', r⟩
      rw [hc] at k1 k2 k3 k4 k5
      dsimp only at k1 k2 k3 k4 k5
      cases c with
      | getGas =>
        simp only [call, getGas, hc]
        cases r with
        | ok b =>
          cases b with
          | false => exact ⟨k1, ⟨_, k5⟩, fun _ => ⟨k2, k3⟩⟩
          | true => exact ⟨k1, ⟨_, k5⟩, fun _ => ⟨k2, hg _ _ k3⟩⟩
        | _ => exact ⟨k1, ⟨_, k5⟩, fun _ => ⟨k2, k3⟩⟩
      | start =>
        simp only [call, start, hc]
        cases r with
        | ok b =>
          cases b with
          | false => exact ⟨k1, ⟨_, k5⟩, fun _ => ⟨k2, k3⟩⟩
          | true =>
            obtain ⟨k6, k7⟩ := k4 rfl
            have := hr o'.st o'.calls ret (k2 k6 k7) k3
            simp only [k5, Value.toArray]
            rcases hrun : H.run o'.st ret with ⟨st', vs', x⟩
            rw [hrun] at this
            simp only [hrun]
            dsimp only at this ⊢
            cases x with
            | ok b => cases b <;> exact ⟨k1, ⟨_, rfl⟩, fun hgo => ⟨fun _ _ => (this rfl).1, (this rfl).2⟩⟩
            | throw e => exact ⟨k1, ⟨_, rfl⟩, fun hgo => ⟨fun _ _ => (this rfl).1, (this rfl).2⟩⟩
            | _ => exact ⟨k1, ⟨_, rfl⟩, fun hgo => by simp [goesOn] at hgo⟩
        | _ => exact ⟨k1, ⟨_, k5⟩, fun _ => ⟨k2, k3⟩⟩
    have hgo : goesOn (call H o c).2 = true := by
      apply hall
      simp only [session]
      split <;> simp
    have hall' : ∀ r ∈ (session H (call H o c).1 cs).2, goesOn r = true := by
      intro r hr
      apply hall
      simp only [session, hgo, if_true]
      exact List.mem_cons_of_mem _ hr
    have hs : (session H o (c :: cs)).1 = (session H (call H o c).1 cs).1 := by
      simp only [session, hgo, if_true]
    rw [hs]
    obtain ⟨q1, q2, q3⟩ := key
    exact ih _ q1 q2 (q3 hgo).1 (q3 hgo).2 hall'

/-- Invocations of `parse` and of `run`. -/
def nParse (calls : List HookCall) : Nat := (calls.filter isParse).length
def nRun (calls : List HookCall) : Nat := (calls.filter (· = .run)).length

/-- The ledger after `p` invocations of `parse` and `r` of `run`, the PEM text being read as `kk`. -/
structure Acc (kk : Option Key) (key : Option Ptr) (l : Ledger) (p r : Nat) : Prop where
  bios : l.bios = p
  keys : l.keys.length = if kk.isSome then p else 0
  nodup : l.keys.Nodup
  fresh : ∀ i ∈ l.keys, i < l.next
  now : if p = 0 then key = none else key.map Prod.snd = kk
  live : ∀ q, key = some q → q.1 ∈ l.keys
  bufs : l.bufs.length = r ∧ ∀ b ∈ l.bufs, ∃ k, kk = some k ∧ b = k.size

theorem Acc.init (kk : Option Key) : Acc kk none .empty 0 0 := by
  constructor <;> simp [Ledger.empty]

theorem Acc.create {pem : Bytes → Option Key} {t : Bytes} {key : Option Ptr} {l : Ledger} {p r : Nat} (h : Acc (pem (cstr t)) key l p r) :
    Acc (pem (cstr t)) (create pem true l t).2 (create pem true l t).1 (p + 1) r ∧ (Crypto.create pem true l t).2.map Prod.snd = pem (cstr t) := by
  simp only [Crypto.create, if_true]
  cases hk : pem (cstr t) with
  | none =>
    rw [hk] at h
    refine ⟨⟨by simp [h.bios], by simpa using h.keys, h.nodup, h.fresh, by simp, by simp, h.bufs⟩, rfl⟩
  | some k =>
    rw [hk] at h
    refine ⟨⟨by simp [h.bios], by simpa using h.keys, ?_, ?_, by simp, by simp, h.bufs⟩, rfl⟩
    · exact List.nodup_cons.mpr ⟨fun hm => absurd (h.fresh _ hm) (by simp), h.nodup⟩
    · intro i hi
      rcases List.mem_cons.mp hi with rfl | hi
      · simp
      · have := h.fresh i hi
        simp only
        omega

theorem Acc.crypt {kk : Option Key} {key : Option Ptr} {l l' : Ledger} {p r : Nat} {f : Fn} {m : Bytes} {x : Option Bytes} (h : Acc kk key l p r)
    (hc : crypt f l key m = .ok (l', x)) : Acc kk key l' p (r + 1) := by
  obtain ⟨i, k, rfl, hi, rfl⟩ := crypt_ok hc
  have hp : p ≠ 0 := by
    intro e
    have := h.now
    simp [e] at this
  have hk : kk = some k := by
    have := h.now
    simp only [hp, if_false, Option.map_some] at this
    exact this.symm
  refine ⟨h.bios, h.keys, h.nodup, h.fresh, h.now, h.live, ?_⟩
  refine ⟨by simp [h.bufs.1], ?_⟩
  intro b hb
  rcases List.mem_cons.mp hb with rfl | hb
  · exact ⟨k, hk, rfl⟩
  · exact h.bufs.2 b hb

theorem Acc.finish {kk : Option Key} {key : Option Ptr} {l : Ledger} {p r : Nat} (h : Acc kk key l p r) :
    ∃ l', destroy l key = .ok l' ∧ l'.bios = p ∧ (l'.bufs.length = r ∧ ∀ b ∈ l'.bufs, ∃ k, kk = some k ∧ b = k.size) ∧
      l'.keys.length = if kk.isSome then p - 1 else 0 := by
  by_cases hp : p = 0
  · have h1 : key = none := by simpa [hp] using h.now
    subst h1
    refine ⟨l, rfl, h.bios, h.bufs, ?_⟩
    rw [h.keys, hp]
  · have h1 := h.now
    simp only [hp, if_false] at h1
    cases key with
    | none =>
      simp only [Option.map_none] at h1
      subst h1
      exact ⟨l, rfl, h.bios, h.bufs, by simpa using h.keys⟩
    | some q =>
      simp only [Option.map_some] at h1
      subst h1
      have hq := h.live q rfl
      refine ⟨{ l with keys := l.keys.erase q.1 }, by simp [destroy, hq], h.bios, h.bufs, ?_⟩
      have := h.keys
      simp only [Option.isSome_some, if_true] at this ⊢
      rw [List.length_erase_of_mem hq, this]

/-! ### The two operations -/

theorem nParse_parse (calls : List HookCall) (r : Res Bool) : nParse (calls ++ [.parse r]) = nParse calls + 1 := by
  simp [nParse, List.filter_cons, isParse]

theorem nParse_gas (calls : List HookCall) : nParse (calls ++ [.gas]) = nParse calls := by simp [nParse, List.filter_cons, isParse]
theorem nParse_run (calls : List HookCall) : nParse (calls ++ [.run]) = nParse calls := by simp [nParse, List.filter_cons, isParse]
theorem nRun_parse (calls : List HookCall) (r : Res Bool) : nRun (calls ++ [.parse r]) = nRun calls := by simp [nRun]
theorem nRun_gas (calls : List HookCall) : nRun (calls ++ [.gas]) = nRun calls := by simp [nRun]
theorem nRun_run (calls : List HookCall) : nRun (calls ++ [.run]) = nRun calls + 1 := by simp [nRun]

theorem argAt_zero {vs : List Value} {t : Bytes} (h : vs[0]? = some (.str t)) : (Value.argAt vs 0 >>= Value.toStr) = .ok t := by
  have : Value.argAt vs 0 = .ok (.str t) := by simp [Value.argAt, h]
  rw [this]
  rfl

theorem encrypt_acc {pem : Bytes → Option Key} {vs : List Value} {t : Bytes} (h0 : vs[0]? = some (.str t)) (cs : List Call) (o : Obj StR)
    (hargs : o.args = .arr vs) (hret : o.ret = .arr []) (_ : o.parsed = false) (hst : o.st = (encryptOpR pem).init) (hcalls : o.calls = [])
    (hall : ∀ r ∈ (session (encryptOpR pem) o cs).2, goesOn r = true) :
    Acc (pem (cstr t)) (session (encryptOpR pem) o cs).1.st.key (session (encryptOpR pem) o cs).1.st.led
      (nParse (session (encryptOpR pem) o cs).1.calls) (nRun (session (encryptOpR pem) o cs).1.calls) := by
  have ht := argAt_zero h0
  refine session_inv (I := fun st calls => Acc (pem (cstr t)) st.key st.led (nParse calls) (nRun calls)) (J := fun _ => True) (vs := vs)
    ?_ (fun _ _ => trivial) ?_ ?_ cs o hargs ⟨_, hret⟩ (fun _ _ => trivial) ?_ hall
  · intro st calls h
    have hc := h.create
    rw [nParse_parse, nRun_parse]
    simp only [encryptOpR, ht]
    rcases hcr : create pem true st.led t with ⟨l, p⟩
    rw [hcr] at hc
    cases p with
    | none => exact hc.1
    | some p => cases (Value.argAt vs 1 >>= Value.toStr) <;> exact hc.1
  · intro st calls h
    rw [nParse_gas, nRun_gas]
    exact h
  · intro st calls ret _ h hgo
    refine ⟨trivial, ?_⟩
    rw [nParse_run, nRun_run]
    simp only [encryptOpR] at hgo ⊢
    rcases hc : crypt .pubEncrypt st.led st.key st.msg with ⟨l, r⟩ | _ | _ | _ | _
    · cases r <;> exact h.crypt hc
    · -- not an outcome of `crypt`
      exfalso
      unfold crypt at hc
      split at hc
      · cases hc
      · split at hc <;> cases hc
    all_goals (rw [hc] at hgo; cases hgo)
  · rw [hst, hcalls]
    exact Acc.init _

theorem decrypt_acc {pem : Bytes → Option Key} {vs : List Value} {t : Bytes} (h0 : vs[0]? = some (.str t)) (cs : List Call) (o : Obj StR)
    (hargs : o.args = .arr vs) (hret : o.ret = .arr []) (_ : o.parsed = false) (hst : o.st = (decryptOpR pem).init) (hcalls : o.calls = [])
    (hall : ∀ r ∈ (session (decryptOpR pem) o cs).2, goesOn r = true) :
    Acc (pem (cstr t)) (session (decryptOpR pem) o cs).1.st.key (session (decryptOpR pem) o cs).1.st.led
      (nParse (session (decryptOpR pem) o cs).1.calls) (nRun (session (decryptOpR pem) o cs).1.calls) := by
  have ht := argAt_zero h0
  refine session_inv (I := fun st calls => Acc (pem (cstr t)) st.key st.led (nParse calls) (nRun calls)) (J := fun _ => True) (vs := vs)
    ?_ (fun _ _ => trivial) ?_ ?_ cs o hargs ⟨_, hret⟩ (fun _ _ => trivial) ?_ hall
  · intro st calls h
    have hc := h.create
    rw [nParse_parse, nRun_parse]
    simp only [decryptOpR, ht]
    rcases hcr : create pem true st.led t with ⟨l, p⟩
    rw [hcr] at hc
    cases p with
    | none => exact hc.1
    | some p =>
      rcases (Value.argAt vs 1 >>= Value.toStr) with h | _ | _ | _ | _
      · dsimp only
        rcases hex2str h with m | _ | _ | _ | _
        · cases m <;> exact hc.1
        all_goals exact hc.1
      all_goals exact hc.1
  · intro st calls h
    rw [nParse_gas, nRun_gas]
    exact h
  · intro st calls ret _ h hgo
    refine ⟨trivial, ?_⟩
    rw [nParse_run, nRun_run]
    simp only [decryptOpR] at hgo ⊢
    rcases hc : crypt .privDecrypt st.led st.key st.msg with ⟨l, r⟩ | _ | _ | _ | _
    · cases r <;> exact h.crypt hc
    · exfalso
      rcases hk : st.key with _ | ⟨i, k⟩
      · rw [hk] at hc; cases hc
      · rw [hk] at hc
        by_cases hi : i ∈ st.led.keys
        · rcases crypt_live (f := .privDecrypt) (k := k) (m := st.msg) hi with ⟨_, e⟩ | e <;> rw [e] at hc <;> cases hc
        · simp [crypt, hi] at hc
    all_goals (rw [hc] at hgo; cases hgo)
  · rw [hst, hcalls]
    exact Acc.init _

/-! ### The ledger changes no answer -/

/-- Two objects that differ in their members only. -/
def Sim {S T : Type} (R : S → T → Prop) (a : Obj S) (b : Obj T) : Prop :=
  a.parsed = b.parsed ∧ a.success = b.success ∧ a.args = b.args ∧ a.ret = b.ret ∧ a.calls = b.calls ∧ R a.st b.st

theorem session_sim {S T : Type} {H : Hooks S} {K : Hooks T} {R : S → T → Prop}
    (hp : ∀ s t vs, R s t → (H.parse s vs).2 = (K.parse t vs).2 ∧ R (H.parse s vs).1 (K.parse t vs).1)
    (hg : ∀ s t, R s t → H.gas s = K.gas t)
    (hr : ∀ s t ret, R s t → (H.run s ret).2 = (K.run t ret).2 ∧ R (H.run s ret).1 (K.run t ret).1)
    (cs : List Call) : ∀ (a : Obj S) (b : Obj T), Sim R a b → (session H a cs).2 = (session K b cs).2 ∧ Sim R (session H a cs).1 (session K b cs).1 := by
  have hck : ∀ (a : Obj S) (b : Obj T), Sim R a b → (check H a).2 = (check K b).2 ∧ Sim R (check H a).1 (check K b).1 := by
    rintro ⟨p, su, ar, re, st, ca⟩ ⟨p', su', ar', re', st', ca'⟩ ⟨h1, h2, h3, h4, h5, h6⟩
    simp only at h1 h2 h3 h4 h5 h6
    subst h1; subst h2; subst h3; subst h4; subst h5
    unfold check
    cases p with
    | true => exact ⟨rfl, rfl, rfl, rfl, rfl, rfl, h6⟩
    | false =>
      simp only [Bool.false_eq_true, if_false]
      cases ar.toArray with
      | ok vs =>
        obtain ⟨q1, q2⟩ := hp st st' vs h6
        dsimp only
        rw [← q1]
        cases (H.parse st vs).2 <;> exact ⟨rfl, rfl, rfl, rfl, rfl, rfl, q2⟩
      | _ => exact ⟨rfl, rfl, rfl, rfl, rfl, rfl, h6⟩
  have hcall : ∀ (a : Obj S) (b : Obj T) (c : Call), Sim R a b → (call H a c).2 = (call K b c).2 ∧ Sim R (call H a c).1 (call K b c).1 := by
    intro a b c h
    obtain ⟨e, hs⟩ := hck a b h
    rcases ha : check H a with ⟨a', r⟩
    rcases hb : check K b with ⟨b', r'⟩
    rw [ha, hb] at e hs
    dsimp only at e hs
    subst e
    obtain ⟨p, su, ar, re, st, ca⟩ := a'
    obtain ⟨p', su', ar', re', st', ca'⟩ := b'
    obtain ⟨h1, h2, h3, h4, h5, h6⟩ := hs
    simp only at h1 h2 h3 h4 h5 h6
    subst h1; subst h2; subst h3; subst h4; subst h5
    cases c with
    | getGas =>
      simp only [call, getGas, ha, hb]
      cases r with
      | ok v =>
        cases v with
        | false => exact ⟨rfl, rfl, rfl, rfl, rfl, rfl, h6⟩
        | true => exact ⟨by simp [hg st st' h6], rfl, rfl, rfl, rfl, rfl, h6⟩
      | _ => exact ⟨rfl, rfl, rfl, rfl, rfl, rfl, h6⟩
    | start =>
      simp only [call, start, ha, hb]
      cases r with
      | ok v =>
        cases v with
        | false => exact ⟨rfl, rfl, rfl, rfl, rfl, rfl, h6⟩
        | true =>
          dsimp only
          cases re.toArray with
          | ok vs =>
            dsimp only
            obtain ⟨q1, q2⟩ := hr st st' vs h6
            rcases hx : H.run st vs with ⟨x1, x2, x3⟩
            rcases hy : K.run st' vs with ⟨y1, y2, y3⟩
            rw [hx, hy] at q1 q2
            simp only [Prod.mk.injEq] at q1
            obtain ⟨rfl, rfl⟩ := q1
            simp only [hx, hy]
            cases x3 with
            | ok v => cases v <;> exact ⟨rfl, rfl, rfl, rfl, rfl, rfl, q2⟩
            | _ => exact ⟨rfl, rfl, rfl, rfl, rfl, rfl, q2⟩
          | _ => exact ⟨rfl, rfl, rfl, rfl, rfl, rfl, h6⟩
      | _ => exact ⟨rfl, rfl, rfl, rfl, rfl, rfl, h6⟩
  induction cs with
  | nil => intro a b h; exact ⟨rfl, h⟩
  | cons c cs ih =>
    intro a b h
    obtain ⟨e, hs⟩ := hcall a b c h
    simp only [session]
    rw [← e]
    cases goesOn (call H a c).2 with
    | true =>
      obtain ⟨e', hs'⟩ := ih _ _ hs
      simp only [if_true]
      exact ⟨by rw [e'], hs'⟩
    | false => exact ⟨rfl, hs⟩

/-- The members without the ledger. -/
def Forget (s : StR) (t : St) : Prop := s.key.map Prod.snd = t.key ∧ s.msg = t.msg ∧ ∀ q, s.key = some q → q.1 ∈ s.led.keys

theorem create_forget (pem : Bytes → Option Key) (l : Ledger) (t : Bytes) :
    (create pem true l t).2.map Prod.snd = pem (cstr t) ∧ ∀ q, (create pem true l t).2 = some q → q.1 ∈ (create pem true l t).1.keys := by
  simp only [create, if_true]
  cases pem (cstr t) <;> simp

theorem encrypt_forget (pem : Bytes → Option Key) (cs : List Call) (a : Obj StR) (b : Obj St) (h : Sim Forget a b) :
    (session (encryptOpR pem) a cs).2 = (session (encryptOp pem) b cs).2 := by
  refine (session_sim (R := Forget) ?_ ?_ ?_ cs a b h).1
  · rintro ⟨sk, sm, sl⟩ ⟨tk, tm⟩ vs ⟨h1, h2, h3⟩
    simp only at h1 h2 h3
    subst h2
    simp only [encryptOpR, encryptOp]
    cases Value.argAt vs 0 >>= Value.toStr with
    | ok t =>
      obtain ⟨c1, c2⟩ := create_forget pem sl t
      rcases hc : create pem true sl t with ⟨l, p⟩
      rw [hc] at c1 c2
      dsimp only at c1 c2
      simp only [hc]
      rw [← c1]
      cases p with
      | none => exact ⟨rfl, rfl, rfl, by simp⟩
      | some p =>
        simp only [Option.map_some]
        cases Value.argAt vs 1 >>= Value.toStr <;> exact ⟨rfl, rfl, rfl, c2⟩
    | _ => exact ⟨rfl, h1, rfl, h3⟩
  · rintro ⟨sk, sm, sl⟩ ⟨tk, tm⟩ ⟨h1, h2, h3⟩
    simp only at h1
    subst h1
    cases sk <;> rfl
  · rintro ⟨sk, sm, sl⟩ ⟨tk, tm⟩ ret ⟨h1, h2, h3⟩
    simp only at h1 h2 h3
    subst h1; subst h2
    cases sk with
    | none => exact ⟨rfl, rfl, rfl, h3⟩
    | some q =>
      obtain ⟨i, k⟩ := q
      have hi := h3 _ rfl
      simp only at hi
      simp only [encryptOpR, encryptOp, crypt, hi, if_true, Option.map_some, Res.ok_bind]
      cases pubEncrypt k sm <;> exact ⟨rfl, rfl, rfl, h3⟩

theorem decrypt_forget (pem : Bytes → Option Key) (cs : List Call) (a : Obj StR) (b : Obj St) (h : Sim Forget a b) :
    (session (decryptOpR pem) a cs).2 = (session (decryptOp pem) b cs).2 := by
  refine (session_sim (R := Forget) ?_ ?_ ?_ cs a b h).1
  · rintro ⟨sk, sm, sl⟩ ⟨tk, tm⟩ vs ⟨h1, h2, h3⟩
    simp only at h1 h2 h3
    subst h2
    simp only [decryptOpR, decryptOp]
    cases Value.argAt vs 0 >>= Value.toStr with
    | ok t =>
      obtain ⟨c1, c2⟩ := create_forget pem sl t
      rcases hc : create pem true sl t with ⟨l, p⟩
      rw [hc] at c1 c2
      dsimp only at c1 c2
      simp only [hc]
      rw [← c1]
      cases p with
      | none => exact ⟨rfl, rfl, rfl, by simp⟩
      | some p =>
        simp only [Option.map_some]
        rcases Value.argAt vs 1 >>= Value.toStr with h | _ | _ | _ | _
        · dsimp only
          rcases hex2str h with m | _ | _ | _ | _
          · cases m <;> exact ⟨rfl, rfl, rfl, c2⟩
          all_goals exact ⟨rfl, rfl, rfl, c2⟩
        all_goals exact ⟨rfl, rfl, rfl, c2⟩
    | _ => exact ⟨rfl, h1, rfl, h3⟩
  · rintro ⟨sk, sm, sl⟩ ⟨tk, tm⟩ ⟨h1, h2, h3⟩
    simp only at h1
    subst h1
    cases sk <;> rfl
  · rintro ⟨sk, sm, sl⟩ ⟨tk, tm⟩ ret ⟨h1, h2, h3⟩
    simp only at h1 h2 h3
    subst h1; subst h2
    cases sk with
    | none => exact ⟨rfl, rfl, rfl, h3⟩
    | some q =>
      obtain ⟨i, k⟩ := q
      have hi := h3 _ rfl
      simp only at hi
      simp only [decryptOpR, decryptOp, crypt, hi, if_true, Option.map_some]
      rcases privDecrypt k sm with m | _ | _ | _ | _
      · cases m <;> exact ⟨rfl, rfl, rfl, h3⟩
      all_goals exact ⟨rfl, rfl, rfl, h3⟩

end Eni.Crypto
