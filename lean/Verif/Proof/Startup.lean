import Verif.Spec.Startup

/-! # Starting servers: proofs -/

namespace Pizauth.Start

theorem set_at {l : List Proc} {p : Nat} {x y : Proc} (hp : l[p]? = some x) (q : Nat) :
    (l.set p y)[q]? = if q = p then some y else l[q]? := by
  rw [List.getElem?_set]
  have hlt : p < l.length := (List.getElem?_eq_some_iff.mp hp).1
  by_cases h : p = q
  · subst h; simp [hlt]
  · simp [h, Ne.symm h]

theorem push_at (l : List Proc) (y : Proc) (q : Nat) :
    (l ++ [y])[q]? = if q = l.length then some y else l[q]? := by
  by_cases h : q = l.length
  · subst h; simp
  · simp only [h, if_false]
    rw [List.getElem?_append]
    split
    · rfl
    · rename_i h2
      have : q - l.length ≠ 0 := by omega
      rw [List.getElem?_eq_none (by simp; omega), List.getElem?_eq_none (by omega)]

/-- What one step does to process `p`, and to everything else. -/
inductive Moves (h : Host) : Act → Nat → Proc → Proc → Option Nat → Nat → Prop where
  | look1 {p x ok} (hx : x.pc = .look) (hs : h.sock.isSome) : Moves h (.run p ok) p x { x with pc := .connect } h.sock h.fresh
  | look2 {p x ok} (hx : x.pc = .look) (hs : h.sock = none) : Moves h (.run p ok) p x { x with pc := .spawn } h.sock h.fresh
  | running {p x ok} (hx : x.pc = .connect) (ha : h.accepts = true) : Moves h (.run p ok) p x x.fail h.sock h.fresh
  | stale {p x ok} (hx : x.pc = .connect) (ha : h.accepts = false) :
      Moves h (.run p ok) p x { x with pc := .remove } h.sock h.fresh
  | remove {p x} (hx : x.pc = .remove) : Moves h (.run p true) p x { x with pc := .spawn } none h.fresh
  | keep {p x} (hx : x.pc = .remove) : Moves h (.run p false) p x { x with pc := .spawn } h.sock h.fresh
  | spawn {p x ok} (hx : x.pc = .spawn) :
      Moves h (.run p ok) p x { x with pc := .conf, keep := some (h.now + sixHours) } h.sock h.fresh
  | conf1 {p x} (hx : x.pc = .conf) (hd : x.daemonise = true) :
      Moves h (.run p true) p x { x with pc := .detach } h.sock h.fresh
  | conf2 {p x} (hx : x.pc = .conf) (hd : x.daemonise = false) :
      Moves h (.run p true) p x { x with pc := .setup } h.sock h.fresh
  | detach {p x} (hx : x.pc = .detach) :
      Moves h (.run p true) p x { x with pc := .setup, status := some 0, keep := none } h.sock h.fresh
  | setup {p x} (hx : x.pc = .setup) : Moves h (.run p true) p x { x with pc := .bind } h.sock h.fresh
  | bind {p x} (hx : x.pc = .bind) (hs : h.sock = none) :
      Moves h (.run p true) p x { x with pc := .listen } (some p) h.now
  | listen {p x} (hx : x.pc = .listen) : Moves h (.run p true) p x { x with pc := .serving } h.sock h.fresh
  | fails {p x ok} (hx : x.pc = .conf ∨ x.pc = .detach ∨ x.pc = .setup ∨ x.pc = .bind ∨ x.pc = .listen) :
      Moves h (.run p ok) p x x.fail h.sock h.fresh
  | touch {p x t} (hk : x.keep = some t) (ht : t ≤ h.now) :
      Moves h (.touch p) p x { x with keep := some (h.now + sixHours) } h.sock
        (if h.sock.isSome then h.now else h.fresh)
  | kill {p x} (hx : x.pc ≠ .ended) : Moves h (.kill p) p x { x with pc := .ended, keep := none } h.sock h.fresh

/-- The steps. -/
inductive Steps (h : Host) : Act → Host → Prop where
  | start (d : Bool) : Steps h (.start d) { h with procs := h.procs ++ [⟨d, .look, none, none⟩] }
  | clean : Steps h .clean { h with sock := none }
  | tick (d : Nat) : Steps h (.tick d) { h with now := h.now + d }
  | move {a p x y s f} (hp : h.procs[p]? = some x) (hm : Moves h a p x y s f) :
      Steps h a { h with procs := h.procs.set p y, sock := s, fresh := f }

theorem steps_of_step {h h' : Host} {a : Act} (hs : h.step a = some h') : Steps h a h' := by
  cases a with
  | start d => simp [Host.step] at hs; subst hs; exact .start d
  | clean => simp [Host.step] at hs; subst hs; exact .clean
  | tick d => simp [Host.step] at hs; subst hs; exact .tick d
  | touch p =>
    simp only [Host.step] at hs
    split at hs; · cases hs
    rename_i x hx
    split at hs; · cases hs
    rename_i t ht
    split at hs
    · rename_i hle
      cases hs
      exact .move hx (.touch ht hle)
    · cases hs
  | kill p =>
    simp only [Host.step] at hs
    split at hs; · cases hs
    rename_i x hx
    split at hs; · cases hs
    rename_i hne
    cases hs
    exact .move hx (.kill hne)
  | run p ok =>
    simp only [Host.step] at hs
    split at hs; · cases hs
    rename_i x hx
    unfold Host.run at hs
    split at hs
    · rename_i hpc
      cases hs
      by_cases hsk : h.sock.isSome
      · rw [if_pos hsk]; exact .move hx (.look1 hpc hsk)
      · rw [if_neg hsk]; exact .move hx (.look2 hpc (by simpa using hsk))
    · rename_i hpc
      cases hs
      cases ha : h.accepts with
      | true => exact .move hx (.running hpc ha)
      | false => exact .move hx (.stale hpc ha)
    · rename_i hpc
      cases hs
      cases ok with
      | true => exact .move hx (.remove hpc)
      | false => exact .move hx (.keep hpc)
    · rename_i hpc
      cases hs
      exact .move hx (.spawn hpc)
    · rename_i hpc
      cases hs
      cases ok with
      | false => exact .move hx (.fails (.inl hpc))
      | true =>
        cases hd : x.daemonise with
        | true =>
          have := Steps.move hx (.conf1 hpc hd)
          simp [hd, Host.set] at this ⊢; exact this
        | false =>
          have := Steps.move hx (.conf2 hpc hd)
          simp [hd, Host.set] at this ⊢; exact this
    · rename_i hpc
      cases hs
      cases ok with
      | true => exact .move hx (.detach hpc)
      | false => exact .move hx (.fails (by simp [hpc]))
    · rename_i hpc
      cases hs
      cases ok with
      | true => exact .move hx (.setup hpc)
      | false => exact .move hx (.fails (by simp [hpc]))
    · rename_i hpc
      split at hs
      · rename_i hc
        obtain ⟨hok, hsk⟩ := hc
        subst hok
        cases hs
        exact .move hx (.bind hpc hsk)
      · cases hs
        exact .move hx (.fails (by simp [hpc]))
    · rename_i hpc
      cases hs
      cases ok with
      | true => exact .move hx (.listen hpc)
      | false => exact .move hx (.fails (by simp [hpc]))
    · cases hs
    · cases hs

@[simp] theorem fail_pc (x : Proc) : x.fail.pc = .ended := rfl
@[simp] theorem fail_keep (x : Proc) : x.fail.keep = none := rfl
@[simp] theorem fail_daemonise (x : Proc) : x.fail.daemonise = x.daemonise := rfl

/-! ## One server at a time -/

/-- Listening processes are the ones at the socket file, and nobody removes the file of a listening process. -/
structure Serial (h : Host) : Prop where
  owner : ∀ (p : Nat) (x : Proc), h.procs[p]? = some x → x.pc = .listen ∨ x.pc = .serving → h.sock = some p
  remove : ∀ (p : Nat) (x : Proc), h.procs[p]? = some x → x.pc = .remove → ∀ q, ¬ h.Serves q

theorem Serial.step {h h' : Host} {a : Act} (hi : Serial h) (hs : h.step a = some h') (hc : a ≠ .clean)
    (h1 : h.OneStarting) : Serial h' := by
  have hst : ∀ (p : Nat) (x : Proc), h.procs[p]? = some x → x.pc ≠ .serving → x.pc ≠ .ended → h.Starting p :=
    fun p x e a b => ⟨x, e, a, b⟩
  cases steps_of_step hs with
  | start d =>
    refine ⟨?_, ?_⟩
    · intro p x hp hl
      simp only [push_at] at hp
      split at hp
      · cases hp; simp at hl
      · exact hi.owner p x hp hl
    · intro p x hp hl q hq
      obtain ⟨y, hy, hpc⟩ := hq
      simp only [push_at] at hp hy
      split at hp
      · cases hp; simp at hl
      · split at hy
        · cases hy; simp at hpc
        · exact hi.remove p x hp hl q ⟨y, hy, hpc⟩
  | clean => exact absurd rfl hc
  | tick d => exact ⟨hi.owner, hi.remove⟩
  | move hp hm =>
    rename_i p x y s f
    -- nobody listens while `p` removes or binds
    have hnone : h.sock = none → ∀ (q : Nat) (z : Proc), h.procs[q]? = some z → ¬ (z.pc = .listen ∨ z.pc = .serving) := by
      intro hn q z hz hl
      have := hi.owner q z hz hl
      rw [hn] at this; cases this
    have hrem : x.pc = .remove → ∀ (q : Nat) (z : Proc), h.procs[q]? = some z → ¬ (z.pc = .listen ∨ z.pc = .serving) := by
      intro hr q z hz hl
      rcases hl with hl | hl
      · have := h1 p q (hst p x hp (by simp [hr]) (by simp [hr])) (hst q z hz (by simp [hl]) (by simp [hl]))
        subst this
        rw [hp] at hz; cases hz; rw [hr] at hl; cases hl
      · exact hi.remove p x hp hr q ⟨z, hz, hl⟩
    have hacc : h.accepts = false → ∀ q, ¬ h.Serves q := by
      intro ha q ⟨z, hz, hpc⟩
      have hs := hi.owner q z hz (.inr hpc)
      simp [Host.accepts, hs, hz, hpc] at ha
    refine ⟨?_, ?_⟩
    · intro q z hz hl
      simp only [set_at hp] at hz
      split at hz
      · rename_i hq
        subst hq
        cases hz
        cases hm <;> first
          | (simp at hl; done)
          | rfl
          | (refine hi.owner q x hp ?_; simp_all; done)
      · rename_i hq
        have ho := hi.owner q z hz hl
        cases hm <;> first
          | exact ho
          | exact absurd hl (hrem (by assumption) q z hz)
          | exact absurd hl (hnone (by assumption) q z hz)
    · intro q z hz hl r hr
      obtain ⟨y', hy', hpc'⟩ := hr
      simp only [set_at hp] at hz hy'
      split at hz
      · rename_i hq
        subst hq
        cases hz
        split at hy'
        · cases hy'; rw [hl] at hpc'; cases hpc'
        · cases hm <;> first
            | (simp at hl; done)
            | exact hacc (by assumption) r ⟨y', hy', hpc'⟩
            | exact hi.remove q x hp (by simpa using hl) r ⟨y', hy', hpc'⟩
      · rename_i hq
        have hq1 := hst q z hz (by simp [hl]) (by simp [hl])
        split at hy'
        · rename_i hr
          cases hy'
          -- `p` begins to serve, or has served
          cases hm <;> first
            | (simp at hpc'; done)
            | exact hi.remove q z hz hl _ ⟨x, hp, by simpa using hpc'⟩
            | exact absurd (h1 q _ hq1 (hst _ x hp (by simp_all) (by simp_all))) hq
        · exact hi.remove q z hz hl r ⟨y', hy', hpc'⟩

theorem Serial.run {h h' : Host} {l : List Act} {r : Run h l h'} (hi : Serial h) (hc : .clean ∉ l)
    (ha : r.All Host.OneStarting) : Serial h' := by
  induction ha with
  | nil hp => exact hi
  | cons hp ha ih =>
    rename_i hs hr
    simp only [List.mem_cons, not_or] at hc
    exact ih (hi.step hs (Ne.symm hc.1) hp) hc.2

/-! ## A server which serves is not disturbed -/

/-- Process `p` serves and has the socket file; nobody is about to remove the file or to listen. -/
structure Settled (p : Nat) (h : Host) : Prop where
  serves : h.Serves p
  sock : h.sock = some p
  others : ∀ (q : Nat) (x : Proc), h.procs[q]? = some x → x.pc ≠ .remove ∧ x.pc ≠ .listen

theorem Settled.accepts {p : Nat} {h : Host} (hi : Settled p h) : h.accepts = true := by
  obtain ⟨x, hx, hpc⟩ := hi.serves
  simp [Host.accepts, hi.sock, hx, hpc]

theorem Settled.step {p : Nat} {h h' : Host} {a : Act} (hi : Settled p h) (hs : h.step a = some h')
    (hc : a ≠ .clean) (hk : a ≠ .kill p) : Settled p h' := by
  obtain ⟨x0, hx0, hpc0⟩ := hi.serves
  cases steps_of_step hs with
  | start d =>
    refine ⟨⟨x0, ?_, hpc0⟩, hi.sock, ?_⟩
    · have : p ≠ h.procs.length := by
        have := (List.getElem?_eq_some_iff.mp hx0).1; omega
      simp [push_at, this, hx0]
    · intro q x hq
      simp only [push_at] at hq
      split at hq
      · cases hq; simp
      · exact hi.others q x hq
  | clean => exact absurd rfl hc
  | tick d => exact ⟨hi.serves, hi.sock, hi.others⟩
  | move hp hm =>
    rename_i r x y s f
    have ho := hi.others r x hp
    have hacc := hi.accepts
    have hsk := hi.sock
    have hsy : h.sock.isSome = true := by simp [hsk]
    have hs' : s = some p := by
      cases hm <;> first
        | exact hsk
        | (simp_all; done)
    refine ⟨?_, hs', ?_⟩
    · by_cases hpr : p = r
      · subst hpr
        have hxx : x = x0 := by rw [hx0] at hp; cases hp; rfl
        subst hxx
        refine ⟨y, by simp [set_at hp], ?_⟩
        cases hm <;> first
          | (simp_all; done)
          | exact hpc0
      · exact ⟨x0, by simp [set_at hp, hpr, hx0], hpc0⟩
    · intro q z hz
      simp only [set_at hp] at hz
      split at hz
      · cases hz
        cases hm <;> simp_all
      · exact hi.others q z hz

/-- Along a run in which `p` is not killed. -/
theorem Settled.run {p : Nat} {h h' : Host} {l : List Act} (hr : Run h l h') (hi : Settled p h) (hc : .clean ∉ l)
    (hk : .kill p ∉ l) : Settled p h' := by
  induction hr with
  | nil h => exact hi
  | cons hs hr ih =>
    simp only [List.mem_cons, not_or] at hc hk
    exact ih (hi.step hs (Ne.symm hc.1) (Ne.symm hk.1)) hc.2 hk.2

/-- What becomes of others: nobody begins to serve. -/
theorem Settled.nobody_else {p : Nat} {h h' : Host} {l : List Act} (hr : Run h l h') (hi : Settled p h)
    (hc : .clean ∉ l) (hk : .kill p ∉ l) {q : Nat} (hq : h'.Serves q) : h.Serves q := by
  induction hr with
  | nil h => exact hq
  | cons hs hr ih =>
    simp only [List.mem_cons, not_or] at hc hk
    have h1 := ih (hi.step hs (Ne.symm hc.1) (Ne.symm hk.1)) hc.2 hk.2 hq
    obtain ⟨z, hz, hpc⟩ := h1
    cases steps_of_step hs with
    | start d =>
      simp only [push_at] at hz
      split at hz
      · cases hz; simp at hpc
      · exact ⟨z, hz, hpc⟩
    | clean => exact ⟨z, hz, hpc⟩
    | tick d => exact ⟨z, hz, hpc⟩
    | move hp hm =>
      simp only [set_at hp] at hz
      split at hz
      · rename_i e
        cases hz
        subst e
        have ho := hi.others q _ hp
        cases hm <;> first
          | (simp at hpc; done)
          | exact ⟨_, hp, by simpa using hpc⟩
          | exact absurd (by assumption) ho.2
      · exact ⟨z, hz, hpc⟩

/-- A process which was started while `p` serves. -/
def Late (x : Proc) : Prop :=
  (x.pc = .look ∧ x.status = none ∨ x.pc = .connect ∧ x.status = none ∨ x.pc = .ended ∧
    (x.status = some 1 ∨ x.status = none)) ∧ x.keep = none

theorem Settled.late {p : Nat} {h h' : Host} {l : List Act} (hr : Run h l h') (hi : Settled p h)
    (hc : .clean ∉ l) (hk : .kill p ∉ l) (n : Nat) (hn : ∀ (q : Nat) (x : Proc), n ≤ q → h.procs[q]? = some x → Late x) :
    ∀ (q : Nat) (x : Proc), n ≤ q → h'.procs[q]? = some x → n ≤ h.procs.length → Late x := by
  induction hr with
  | nil h => exact fun q x hq hx _ => hn q x hq hx
  | cons hs hr ih =>
    simp only [List.mem_cons, not_or] at hc hk
    intro q x hq hx hle
    have hsy : _ = some p := hi.sock
    have hacc := hi.accepts
    refine ih (hi.step hs (Ne.symm hc.1) (Ne.symm hk.1)) hc.2 hk.2 ?_ q x hq hx ?_
    · intro q z hq hz
      cases steps_of_step hs with
      | start d =>
        simp only [push_at] at hz
        split at hz
        · cases hz; simp [Late]
        · exact hn q z hq hz
      | clean => exact hn q z hq hz
      | tick d => exact hn q z hq hz
      | move hp hm =>
        simp only [set_at hp] at hz
        split at hz
        · rename_i e
          cases hz
          subst e
          have hl := hn q _ hq hp
          unfold Late at hl ⊢
          cases hm with
          | fails hx => rcases hx with hx | hx | hx | hx | hx <;> simp [hx] at hl
          | kill hx => rcases hl with ⟨hl | hl | hl, _⟩ <;> simp [hl]
          | _ => simp_all [Proc.fail]
        · exact hn q z hq hz
    · cases steps_of_step hs <;> simp <;> omega

/-! ## Exit status -/

/-- The exit status, and the thread, of each process. -/
structure StatusInv (h : Host) : Prop where
  /-- no status without an end, but for daemons -/
  status : ∀ (p : Nat) (x : Proc), h.procs[p]? = some x →
    (x.status = none ∨ (x.status = some 1 ∧ x.pc = .ended) ∨
      (x.status = some 0 ∧ x.daemonise = true ∧
        (x.pc = .setup ∨ x.pc = .bind ∨ x.pc = .listen ∨ x.pc = .serving ∨ x.pc = .ended)))
  detached : ∀ (p : Nat) (x : Proc), h.procs[p]? = some x → x.daemonise = true →
    (x.pc = .setup ∨ x.pc = .bind ∨ x.pc = .listen ∨ x.pc = .serving) → x.status = some 0 ∧ x.keep = none
  detach : ∀ (p : Nat) (x : Proc), h.procs[p]? = some x → x.pc = .detach → x.daemonise = true
  /-- without `-d` -/
  keep : ∀ (p : Nat) (x : Proc), h.procs[p]? = some x → x.daemonise = false →
    (x.pc = .conf ∨ x.pc = .setup ∨ x.pc = .bind ∨ x.pc = .listen ∨ x.pc = .serving) → x.keep.isSome = true
  ended : ∀ (p : Nat) (x : Proc), h.procs[p]? = some x → x.pc = .ended → x.keep = none
  fresh : h.fresh ≤ h.now
  bound : ∀ (p : Nat), h.sock = some p → ∃ x, h.procs[p]? = some x ∧ (x.pc = .listen ∨ x.pc = .serving ∨ x.pc = .ended)
  due : ∀ (p : Nat) (x : Proc) (t : Nat), h.procs[p]? = some x → x.keep = some t →
    t ≤ h.now + sixHours ∧ (h.sock = some p → t ≤ h.fresh + sixHours)

theorem StatusInv.boot : StatusInv Host.boot := by
  refine ⟨?_, ?_, ?_, ?_, ?_, ?_, ?_, ?_⟩ <;> simp [Host.boot]

theorem StatusInv.step {h h' : Host} {a : Act} (hi : StatusInv h) (hs : h.step a = some h') : StatusInv h' := by
  cases steps_of_step hs with
  | start d =>
    refine ⟨?_, ?_, ?_, ?_, ?_, hi.fresh, ?_, ?_⟩
    · intro p x hp
      simp only [push_at] at hp
      split at hp
      · cases hp; simp
      · exact hi.status p x hp
    · intro p x hp hd
      simp only [push_at] at hp
      split at hp
      · cases hp; simp
      · exact hi.detached p x hp hd
    · intro p x hp hd
      simp only [push_at] at hp
      split at hp
      · cases hp; simp at hd
      · exact hi.detach p x hp hd
    · intro p x hp hd
      simp only [push_at] at hp
      split at hp
      · cases hp; simp
      · exact hi.keep p x hp hd
    · intro p x hp hd
      simp only [push_at] at hp
      split at hp
      · cases hp; simp
      · exact hi.ended p x hp hd
    · intro p hp
      obtain ⟨x, hx, hl⟩ := hi.bound p hp
      have : p ≠ h.procs.length := by
        have := (List.getElem?_eq_some_iff.mp hx).1; omega
      exact ⟨x, by simp [push_at, this, hx], hl⟩
    · intro p x t hp hd
      simp only [push_at] at hp
      split at hp
      · cases hp; simp at hd
      · exact hi.due p x t hp hd
  | clean =>
    refine ⟨hi.status, hi.detached, hi.detach, hi.keep, hi.ended, hi.fresh, by simp, ?_⟩
    intro p x t hp hk
    exact ⟨(hi.due p x t hp hk).1, by simp⟩
  | tick d =>
    refine ⟨hi.status, hi.detached, hi.detach, hi.keep, hi.ended, ?_, hi.bound, ?_⟩
    · have := hi.fresh; simp; omega
    · intro p x t hp hk
      have := hi.due p x t hp hk
      refine ⟨?_, this.2⟩
      have := this.1; simp; omega
  | move hp hm =>
    rename_i p x y s f
    have h1 := hi.status p x hp
    have h2 := hi.detached p x hp
    have h3 := hi.detach p x hp
    have h4 := hi.keep p x hp
    have h5 := hi.ended p x hp
    have h6 := fun t => hi.due p x t hp
    have h7 := hi.fresh
    have h8 := hi.bound
    refine ⟨?_, ?_, ?_, ?_, ?_, ?_, ?_, ?_⟩
    · intro q z hz
      simp only [set_at hp] at hz
      split at hz
      · cases hz
        cases hm <;> first
          | exact h1
          | (simp_all [Proc.fail]; done)
          | (rcases h1 with h1 | h1 | h1 <;> simp_all [Proc.fail]; done)
      · exact hi.status q z hz
    · intro q z hz
      simp only [set_at hp] at hz
      split at hz
      · cases hz
        cases hm <;> simp_all [Proc.fail]
      · exact hi.detached q z hz
    · intro q z hz
      simp only [set_at hp] at hz
      split at hz
      · cases hz
        cases hm <;> simp_all [Proc.fail]
      · exact hi.detach q z hz
    · intro q z hz
      simp only [set_at hp] at hz
      split at hz
      · cases hz
        cases hm <;> simp_all [Proc.fail]
      · exact hi.keep q z hz
    · intro q z hz
      simp only [set_at hp] at hz
      split at hz
      · cases hz
        cases hm <;> simp_all [Proc.fail]
      · exact hi.ended q z hz
    · cases hm <;> first
        | exact h7
        | exact Nat.le_refl _
        | (simp only; split <;> omega)
    · intro q hq
      by_cases e : q = p
      · subst e
        refine ⟨y, by simp [set_at hp], ?_⟩
        cases hm <;> first
          | (simp; done)
          | (obtain ⟨x', hx', hl⟩ := h8 q (by simpa using hq)
             rw [hp] at hx'; cases hx'
             simp_all; done)
      · have hq' : h.sock = some q := by
          cases hm <;> first
            | exact hq
            | (simp at hq; done)
            | (simp at hq; exact absurd hq.symm e)
        obtain ⟨x', hx', hl⟩ := h8 q hq'
        exact ⟨x', by simp [set_at hp, e, hx'], hl⟩
    · intro q z t hz hk
      simp only [set_at hp] at hz
      split at hz
      · rename_i e
        cases hz
        subst e
        cases hm <;> first
          | exact h6 t hk
          | (simp at hk; done)
          | (refine ⟨(h6 t hk).1, ?_⟩; simp; done)
          | (refine ⟨(h6 t hk).1, fun _ => (h6 t hk).1⟩; done)
          | (simp at hk; subst hk; refine ⟨Nat.le_refl _, ?_⟩; intro hsq; simp at hsq ⊢; simp_all; done)
          | (simp at hk; subst hk; refine ⟨Nat.le_refl _, ?_⟩; intro hsq
             obtain ⟨x', hx', hl⟩ := h8 q (by simpa using hsq)
             rw [hp] at hx'; cases hx'
             simp_all; done)
      · rename_i e
        have := hi.due q z t hz hk
        cases hm <;> first
          | exact this
          | (refine ⟨this.1, ?_⟩; simp [Ne.symm e]; done)
          | (refine ⟨this.1, ?_⟩; intro hsq; simp at hsq; exact absurd hsq.symm e)
          | (refine ⟨this.1, ?_⟩; intro hsq; have h9 := this.2 hsq; simp only; split <;> omega)

theorem StatusInv.run {h h' : Host} {l : List Act} (hr : Run h l h') (hi : StatusInv h) : StatusInv h' := by
  induction hr with
  | nil h => exact hi
  | cons hs hr ih => exact ih (hi.step hs)

end Pizauth.Start
