import Verif.Spec.Accept
import Verif.Proof.Obs
import Verif.Proof.Refresh

/-!
# Connections to the socket
-/

namespace Pizauth

variable {E : Env}

theorem requests_append {l L : Log} (h : ∀ p ∈ l, p.2.isRequest = false) : requests (l ++ L) = requests L := by
  unfold requests
  rw [List.filterMap_append, List.filterMap_eq_nil_iff.mpr, List.nil_append]
  intro p hp
  have := h p hp
  obtain ⟨t, o⟩ := p
  cases o <;> simp_all [Obs.isRequest]

/-- What does not come from clients of the socket does not add requests. -/
theorem requests_other {w w' : World} {a : Action} (hr : Reach E w) (hs : w.step E a = some w')
    (ha : ∀ b, a ≠ .connect b) : requests w'.log = requests w.log := by
  obtain ⟨_, hs⟩ := stepR_of_step hr.inv0.wf hs
  obtain ⟨l, hl, hn⟩ := hs.log_new
  rw [hl]
  exact requests_append fun p hp => (hn p hp).2.not_request ha

theorem requests_connect {w w' : World} {b : Bytes} (hr : Reach E w) (hs : w.step E (.connect b) = some w') :
    requests w'.log = requests w.log ++ [b] := by
  obtain ⟨_, hs⟩ := stepR_of_step hr.inv0.wf hs
  cases hs
  simp [requests]

/-- Everything about connections which is true at all times. -/
structure Front.Inv (E : Env) (f : Front) : Prop where
  world : Reach E f.world
  ids : f.done.map (·.1) ++ f.conns.map (·.id) = List.range f.next
  fresh : ∀ i, f.next ≤ i → f.sent i = []
  backlog : ∀ c ∈ f.backlog, c.unread = f.sent c.id
  current : ∀ c buf, f.current = some (c, buf) → buf ++ c.unread = f.sent c.id
  requests : requests f.world.log = (f.done.filter (·.2)).map fun p => f.sent p.1

theorem Front.onConn_ids {f : Front} {id : Nat} {g : Conn → Conn} (hg : ∀ c, (g c).id = c.id) :
    (f.onConn id g).conns.map (·.id) = f.conns.map (·.id) := by
  have h : ∀ c : Conn, (if c.id = id then g c else c).id = c.id := fun c => by split <;> simp [hg]
  unfold Front.conns Front.onConn
  cases f.current <;> simp [h, Function.comp_def]

theorem Front.Inv.nodup {f : Front} (h : f.Inv E) : (f.done.map (·.1) ++ f.conns.map (·.id)).Nodup := by
  rw [h.ids]; exact List.nodup_range

theorem Front.Inv.lt {f : Front} (h : f.Inv E) {c : Conn} (hc : c ∈ f.conns) : c.id < f.next := by
  have : c.id ∈ List.range f.next := by
    rw [← h.ids]; exact List.mem_append_right _ (List.mem_map.mpr ⟨c, hc, rfl⟩)
  exact List.mem_range.mp this

/-- A connection which is there has not been dealt with. -/
theorem Front.Inv.not_done {f : Front} (h : f.Inv E) {c : Conn} (hc : c ∈ f.conns) {p : Nat × Bool}
    (hp : p ∈ f.done) : p.1 ≠ c.id := by
  intro he
  exact (List.nodup_append.mp h.nodup).2.2 p.1 (List.mem_map.mpr ⟨p, hp, rfl⟩) c.id (List.mem_map.mpr ⟨c, hc, rfl⟩) he

theorem Front.isOpen_mem {f : Front} {id : Nat} (ho : f.isOpen id = true) :
    ∃ c ∈ f.conns, c.id = id ∧ c.state = .open := by
  obtain ⟨c, hc, hs⟩ := List.any_eq_true.mp ho
  simp only [Bool.and_eq_true, beq_iff_eq] at hs
  exact ⟨c, hc, hs⟩

/-- Changing what clients have done to a connection, but not what was sent. -/
theorem Front.Inv.onConn {f : Front} (h : f.Inv E) {id : Nat} {g : Conn → Conn} (hg : ∀ c, (g c).id = c.id)
    (hu : ∀ c, (g c).unread = c.unread) : (f.onConn id g).Inv E := by
  refine ⟨h.world, ?_, h.fresh, ?_, ?_, h.requests⟩
  · rw [Front.onConn_ids hg]; exact h.ids
  · intro c hc
    obtain ⟨d, hd, rfl⟩ := List.mem_map.mp hc
    have := h.backlog d hd
    show _ = f.sent _
    split
    · rw [hu, hg]; exact this
    · exact this
  · intro c buf hc
    show _ = f.sent _
    simp only [Front.onConn, Option.map_eq_some_iff] at hc
    obtain ⟨⟨d, b⟩, hd, he⟩ := hc
    have := h.current d b hd
    simp only [Prod.mk.injEq] at he
    obtain ⟨rfl, rfl⟩ := he
    split
    · rw [hu, hg]; exact this
    · exact this

theorem Front.Inv.step {f f' : Front} {a : FrontAct} (h : f.Inv E) (hs : f.step E a = some f') : f'.Inv E := by
  cases a with
  | connect =>
    simp only [Front.step, Option.some.injEq] at hs
    subst hs
    refine ⟨h.world, ?_, fun i hi => h.fresh i (Nat.le_of_succ_le hi), ?_, h.current, h.requests⟩
    · have := h.ids
      simp only [Front.conns, List.map_append, ← List.append_assoc] at this ⊢
      rw [this, List.range_succ]
      rfl
    · intro c hc
      rcases List.mem_append.mp hc with hc | hc
      · exact h.backlog c hc
      · cases List.mem_singleton.mp hc
        exact (h.fresh _ (Nat.le_refl _)).symm
  | send id b =>
    simp only [Front.step] at hs
    split at hs
    · rename_i ho
      cases hs
      obtain ⟨c, hc, hid, -⟩ := Front.isOpen_mem ho
      have hlt := h.lt hc
      refine ⟨h.world, ?_, ?_, ?_, ?_, ?_⟩
      · exact (congrArg _ (Front.onConn_ids (f := f) (id := id) (g := fun c => { c with unread := c.unread ++ b })
          fun _ => rfl)).trans h.ids
      · intro i hi
        have hi : f.next ≤ i := hi
        show (if i = id then _ else _) = _
        rw [if_neg (by omega)]
        exact h.fresh i hi
      · intro d hd
        obtain ⟨e, he, rfl⟩ := List.mem_map.mp hd
        have := h.backlog e he
        show _ = (if _ = id then _ else _)
        by_cases hi : e.id = id
        · simp [hi, this]
        · simp [hi, this]
      · intro d buf hd
        simp only [Front.onConn, Option.map_eq_some_iff] at hd
        obtain ⟨⟨e, b'⟩, he, heq⟩ := hd
        have := h.current e b' he
        simp only [Prod.mk.injEq] at heq
        obtain ⟨rfl, rfl⟩ := heq
        show _ = (if _ = id then _ else _)
        by_cases hi : e.id = id
        · rw [if_pos hi, if_pos hi, ← this]; simp
        · simp [hi, this]
      · show Pizauth.requests f.world.log = _
        rw [h.requests]
        apply List.map_congr_left
        intro p hp
        have := h.not_done hc (List.mem_filter.mp hp).1
        show _ = (if _ = id then _ else _)
        rw [if_neg (by rw [← hid]; exact this)]
    · cases hs
  | shut id =>
    simp only [Front.step] at hs
    split at hs
    · cases hs
      exact h.onConn (fun _ => rfl) fun _ => rfl
    · cases hs
  | reset id =>
    simp only [Front.step, Option.some.injEq] at hs
    subst hs
    exact h.onConn (fun _ => rfl) fun _ => rfl
  | accept =>
    simp only [Front.step] at hs
    split at hs
    · rename_i hp hc hb
      split at hs
      · cases hs
        have hids := h.ids
        simp only [Front.conns, hc, hb] at hids
        refine ⟨h.world, hids, h.fresh, fun c hc => h.backlog c (hb ▸ List.mem_cons_of_mem _ hc), ?_, h.requests⟩
        intro c buf he
        cases he
        exact h.backlog _ (hb ▸ List.mem_cons_self)
      · cases hs
    · cases hs
  | read k =>
    simp only [Front.step] at hs
    split at hs
    · rename_i c buf hp hc
      have hids := h.ids
      simp only [Front.conns, hc] at hids
      split at hs
      · cases hs
        refine ⟨h.world, ?_, h.fresh, h.backlog, fun _ _ he => by simp at he, ?_⟩
        · simpa [Front.conns] using hids
        · simp [h.requests]
      · split at hs
        · split at hs
          · rename_i hu _ _
            simp only [Option.map_eq_some_iff] at hs
            obtain ⟨w, hw, rfl⟩ := hs
            have hcur := h.current c buf hc
            rw [List.isEmpty_iff.mp hu, List.append_nil] at hcur
            refine ⟨.step _ h.world hw, ?_, h.fresh, h.backlog, fun _ _ he => by simp at he, ?_⟩
            · simpa [Front.conns] using hids
            · show Pizauth.requests w.log = _
              rw [requests_connect h.world hw, h.requests]
              simp [hcur]
          · cases hs
        · split at hs
          · cases hs
            refine ⟨h.world, hids, h.fresh, h.backlog, ?_, h.requests⟩
            intro d b he
            cases he
            rw [List.append_assoc, List.take_append_drop]
            exact h.current c buf hc
          · cases hs
    · cases hs
  | other a =>
    have key : (∀ b, a ≠ .connect b) ∧ ∃ w, f.world.step E a = some w ∧ f' = { f with world := w } := by
      cases a <;> simp only [Front.step, Option.map_eq_some_iff, reduceCtorEq] at hs <;>
        exact ⟨(fun b he => by cases he), hs.choose, hs.choose_spec.1, hs.choose_spec.2.symm⟩
    obtain ⟨ha, w, hw, rfl⟩ := key
    exact ⟨.step _ h.world hw, h.ids, h.fresh, h.backlog, h.current, (requests_other h.world hw ha).trans h.requests⟩

theorem Front.IsInit.inv {f : Front} (hi : f.IsInit E) : f.Inv E := by
  refine ⟨.init hi.world, ?_, fun i _ => hi.sent i, ?_, ?_, ?_⟩
  · simp [Front.conns, hi.done, hi.current, hi.backlog, hi.next]
  · simp [hi.backlog]
  · simp [hi.current]
  · simp [hi.world.log, hi.done, Pizauth.requests]

theorem Front.run_ind {P : Front → List FrontAct → Prop}
    (hs : ∀ f f' l a, P f l → f.step E a = some f' → P f' (l ++ [a])) :
    ∀ (l l₀ : List FrontAct) (f f' : Front), P f l₀ → f.run E l = some f' → P f' (l₀ ++ l)
  | [], l₀, f, f', h, hr => by
    simp only [Front.run, Option.some.injEq] at hr
    subst hr; rw [List.append_nil]; exact h
  | a :: l, l₀, f, f', h, hr => by
    simp only [Front.run] at hr
    split at hr
    · cases hr
    · rename_i g hg
      have := Front.run_ind hs l (l₀ ++ [a]) g f' (hs _ _ _ _ h hg) hr
      rwa [List.append_assoc] at this

theorem FrontReach.inv {f : Front} (h : FrontReach E f) : f.Inv E := by
  obtain ⟨f₀, l, hi, hr⟩ := h
  exact Front.run_ind (P := fun f _ => f.Inv E) (fun _ _ _ _ h hs => h.step hs) l [] f₀ f hi.inv hr

/-- What the state of connections says about what clients did. -/
structure Front.Hist (E : Env) (f : Front) (l : List FrontAct) : Prop where
  inv : f.Inv E
  next : f.next = clients l
  sent : ∀ i, f.sent i = sentBy i l
  shut : ∀ c ∈ f.conns, c.state = .shut → .shut c.id ∈ l
  reset : ∀ c ∈ f.conns, c.state = .reset → .reset c.id ∈ l
  served : ∀ i, (i, true) ∈ f.done → .shut i ∈ l
  skipped : ∀ i, (i, false) ∈ f.done → .reset i ∈ l
  idle : f.current.isSome → f.world.threads 0 = []

theorem clients_snoc (l : List FrontAct) (a : FrontAct) :
    clients (l ++ [a]) = clients l + (match a with | .connect => 1 | _ => 0) := by
  cases a <;> simp [clients]

theorem sentBy_snoc (i : Nat) (l : List FrontAct) (a : FrontAct) :
    sentBy i (l ++ [a]) = sentBy i l ++ (match a with | .send j b => if j = i then b else [] | _ => []) := by
  cases a <;> simp [sentBy]

theorem mem_onConn {f : Front} {id : Nat} {g : Conn → Conn} {c : Conn} (h : c ∈ (f.onConn id g).conns) :
    ∃ d ∈ f.conns, c = if d.id = id then g d else d := by
  unfold Front.conns Front.onConn at h
  unfold Front.conns
  cases hc : f.current <;> simp_all
  · obtain ⟨d, hd, rfl⟩ := h; exact ⟨d, hd, rfl⟩
  · rcases h with rfl | ⟨d, hd, rfl⟩
    · exact .inl rfl
    · exact .inr ⟨d, hd, rfl⟩

theorem Front.Hist.step {f f' : Front} {l : List FrontAct} {a : FrontAct} (h : f.Hist E l)
    (hs : f.step E a = some f') : f'.Hist E (l ++ [a]) := by
  have inv := h.inv.step hs
  have ml : ∀ {x : FrontAct}, x ∈ l → x ∈ l ++ [a] := fun hx => List.mem_append_left _ hx
  have ma : a ∈ l ++ [a] := by simp
  cases a with
  | connect =>
    simp only [Front.step, Option.some.injEq] at hs
    subst hs
    refine ⟨inv, ?_, ?_, ?_, ?_, fun i hi => ml (h.served i hi), fun i hi => ml (h.skipped i hi), h.idle⟩
    · rw [clients_snoc, ← h.next]
    · intro i; rw [sentBy_snoc, ← h.sent]; simp
    all_goals
      intro c hc hst
      simp only [Front.conns, ← List.append_assoc] at hc
      rcases List.mem_append.mp hc with hc | hc
      · first | exact ml (h.shut c hc hst) | exact ml (h.reset c hc hst)
      · cases List.mem_singleton.mp hc; cases hst
  | send id b =>
    simp only [Front.step] at hs
    split at hs
    · cases hs
      refine ⟨inv, ?_, ?_, ?_, ?_, fun i hi => ml (h.served i hi), fun i hi => ml (h.skipped i hi), ?_⟩
      · rw [clients_snoc]; exact h.next
      · intro i
        rw [sentBy_snoc, ← h.sent]
        show (if i = id then _ else _) = _
        by_cases hi : i = id
        · simp [hi]
        · simp [hi, Ne.symm hi]
      · intro c hc hst
        obtain ⟨d, hd, rfl⟩ := mem_onConn (f := f) (id := id) (g := fun c => { c with unread := c.unread ++ b }) hc
        have := h.shut d hd
        split at hst <;> split <;> simp_all
      · intro c hc hst
        obtain ⟨d, hd, rfl⟩ := mem_onConn (f := f) (id := id) (g := fun c => { c with unread := c.unread ++ b }) hc
        have := h.reset d hd
        split at hst <;> split <;> simp_all
      · intro hc
        exact h.idle (by simpa [Front.onConn] using hc)
    · cases hs
  | shut id =>
    simp only [Front.step] at hs
    split at hs
    · cases hs
      refine ⟨inv, ?_, ?_, ?_, ?_, fun i hi => ml (h.served i hi), fun i hi => ml (h.skipped i hi), ?_⟩
      · rw [clients_snoc]; exact h.next
      · intro i
        rw [sentBy_snoc, ← h.sent]
        simp [Front.onConn]
      · intro c hc hst
        obtain ⟨d, hd, rfl⟩ := mem_onConn (f := f) hc
        have := h.shut d hd
        split at hst <;> split <;> simp_all
      · intro c hc hst
        obtain ⟨d, hd, rfl⟩ := mem_onConn (f := f) hc
        have := h.reset d hd
        split at hst <;> split <;> simp_all
      · intro hc
        exact h.idle (by simpa [Front.onConn] using hc)
    · cases hs
  | reset id =>
    simp only [Front.step, Option.some.injEq] at hs
    subst hs
    refine ⟨inv, ?_, ?_, ?_, ?_, fun i hi => ml (h.served i hi), fun i hi => ml (h.skipped i hi), ?_⟩
    · rw [clients_snoc]; exact h.next
    · intro i
      rw [sentBy_snoc, ← h.sent]
      simp [Front.onConn]
    · intro c hc hst
      obtain ⟨d, hd, rfl⟩ := mem_onConn (f := f) hc
      have := h.shut d hd
      split at hst <;> split <;> simp_all
    · intro c hc hst
      obtain ⟨d, hd, rfl⟩ := mem_onConn (f := f) hc
      have := h.reset d hd
      split at hst <;> split <;> simp_all
    · intro hc
      exact h.idle (by simpa [Front.onConn] using hc)
  | accept =>
    simp only [Front.step] at hs
    split at hs
    · rename_i hp hc hb
      split at hs
      · rename_i ht
        cases hs
        have hconns : ∀ d, d ∈ f.conns ↔ d ∈ f.backlog := by simp [Front.conns, hc]
        refine ⟨inv, ?_, ?_, ?_, ?_, fun i hi => ml (h.served i hi), fun i hi => ml (h.skipped i hi), ?_⟩
        · rw [clients_snoc]; exact h.next
        · intro i; rw [sentBy_snoc, ← h.sent]; simp
        · intro d hd hst
          exact ml (h.shut d ((hconns d).mpr (by rw [hb]; simpa [Front.conns] using hd)) hst)
        · intro d hd hst
          exact ml (h.reset d ((hconns d).mpr (by rw [hb]; simpa [Front.conns] using hd)) hst)
        · intro _; exact List.isEmpty_iff.mp ht
      · cases hs
    · cases hs
  | read k =>
    simp only [Front.step] at hs
    split at hs
    · rename_i c buf hp hc
      have hcm : c ∈ f.conns := by simp [Front.conns, hc]
      have hbm : ∀ {d}, d ∈ f.backlog → d ∈ f.conns := fun hd => List.mem_append_right _ hd
      have hn : f.next = clients (l ++ [.read k]) := by rw [clients_snoc]; exact h.next
      have hse : ∀ i, f.sent i = sentBy i (l ++ [.read k]) := fun i => by
        rw [sentBy_snoc, ← h.sent]; simp
      split at hs
      · rename_i hst
        cases hs
        refine ⟨inv, hn, hse, fun d hd => ?_, fun d hd => ?_, fun i hi => ?_, fun i hi => ?_, fun hx => by simp at hx⟩
        · exact fun hs => ml (h.shut d (hbm (by simpa [Front.conns] using hd)) hs)
        · exact fun hs => ml (h.reset d (hbm (by simpa [Front.conns] using hd)) hs)
        · rcases List.mem_append.mp hi with hi | hi
          · exact ml (h.served i hi)
          · simp at hi
        · rcases List.mem_append.mp hi with hi | hi
          · exact ml (h.skipped i hi)
          · simp only [List.mem_singleton, Prod.mk.injEq, and_true] at hi
            subst hi
            exact ml (h.reset c hcm hst)
      · split at hs
        · split at hs
          · rename_i _ _ hst
            simp only [Option.map_eq_some_iff] at hs
            obtain ⟨w, hw, rfl⟩ := hs
            refine ⟨inv, hn, hse, fun d hd => ?_, fun d hd => ?_, fun i hi => ?_, fun i hi => ?_, fun hx => by simp at hx⟩
            · exact fun hs => ml (h.shut d (hbm (by simpa [Front.conns] using hd)) hs)
            · exact fun hs => ml (h.reset d (hbm (by simpa [Front.conns] using hd)) hs)
            · rcases List.mem_append.mp hi with hi | hi
              · exact ml (h.served i hi)
              · simp only [List.mem_singleton, Prod.mk.injEq, and_true] at hi
                subst hi
                exact ml (h.shut c hcm hst)
            · rcases List.mem_append.mp hi with hi | hi
              · exact ml (h.skipped i hi)
              · simp at hi
          · cases hs
        · split at hs
          · cases hs
            refine ⟨inv, hn, hse, fun d hd => ?_, fun d hd => ?_, fun i hi => ml (h.served i hi),
              fun i hi => ml (h.skipped i hi), fun _ => h.idle (by rw [hc]; rfl)⟩
            · simp only [Front.conns, Option.map_some, Option.toList_some, List.singleton_append, List.mem_cons] at hd
              rcases hd with rfl | hd
              · exact fun hs => ml (h.shut c hcm hs)
              · exact fun hs => ml (h.shut d (hbm hd) hs)
            · simp only [Front.conns, Option.map_some, Option.toList_some, List.singleton_append, List.mem_cons] at hd
              rcases hd with rfl | hd
              · exact fun hs => ml (h.reset c hcm hs)
              · exact fun hs => ml (h.reset d (hbm hd) hs)
          · cases hs
    · cases hs
  | other a =>
    have key : (∀ b, a ≠ .connect b) ∧ ∃ w, f.world.step E a = some w ∧ f' = { f with world := w } := by
      cases a <;> simp only [Front.step, Option.map_eq_some_iff, reduceCtorEq] at hs <;>
        exact ⟨(fun b he => by cases he), hs.choose, hs.choose_spec.1, hs.choose_spec.2.symm⟩
    obtain ⟨ha, w, hw, rfl⟩ := key
    refine ⟨inv, ?_, ?_, fun d hd hs => ml (h.shut d hd hs), fun d hd hs => ml (h.reset d hd hs),
      fun i hi => ml (h.served i hi), fun i hi => ml (h.skipped i hi), fun hc => ?_⟩
    · rw [clients_snoc]; exact h.next
    · intro i; rw [sentBy_snoc, ← h.sent]; simp
    · have h0 := h.idle hc
      obtain ⟨_, hsr⟩ := stepR_of_step h.inv.world.inv0.wf hw
      show w.threads 0 = []
      have ht := h.inv.world.inv0.tid0
      rw [← h0]
      cases hsr <;> try rfl
      case connect b _ => exact absurd rfl (ha b)
      case http => simp only; rw [setThread_ne _ (by omega)]
      case run tid inp op rest g ht' hx =>
        exact apply_threads_other ht (by rintro rfl; rw [h0] at ht'; cases ht') rest g
      case refScan => simp only; rw [spawnAll_lt _ _ _ _ ht]

theorem Front.IsInit.hist {f : Front} (hi : f.IsInit E) : f.Hist E [] :=
  ⟨hi.inv, hi.next, hi.sent, by simp [Front.conns, hi.backlog, hi.current], by simp [Front.conns, hi.backlog, hi.current],
    by simp [hi.done], by simp [hi.done], by simp [hi.current]⟩

theorem Front.IsInit.run {f f' : Front} {l : List FrontAct} (hi : f.IsInit E) (hr : f.run E l = some f') : f'.Hist E l :=
  Front.run_ind (P := fun f l => f.Hist E l) (fun _ _ _ _ h hs => h.step hs) l [] f f' hi.hist hr

/-- The connections which have been dealt with are the first ones. -/
theorem Front.Inv.done_range {f : Front} (h : f.Inv E) :
    f.done.map (·.1) = List.range f.done.length ∧ f.done.length ≤ f.next := by
  have hl : f.done.length ≤ f.next := by
    have := congrArg List.length h.ids
    simp only [List.length_append, List.length_map, List.length_range] at this
    omega
  refine ⟨?_, hl⟩
  have := congrArg (List.take f.done.length) h.ids
  rw [List.take_left' (by simp), List.take_range, Nat.min_eq_left hl] at this
  exact this

/-- What a step does to the connections which were dealt with and to the requests. -/
theorem Front.Inv.requests_step {f f' : Front} {a : FrontAct} (h : f.Inv E) (hs : f.step E a = some f') :
    (∃ d, f'.done = f.done ++ d) ∧ (∃ r, Pizauth.requests f'.world.log = Pizauth.requests f.world.log ++ r) := by
  have inv := h.step hs
  cases a with
  | connect =>
    simp only [Front.step, Option.some.injEq] at hs; subst hs; exact ⟨⟨[], by simp⟩, ⟨[], by simp⟩⟩
  | send id b =>
    simp only [Front.step] at hs
    split at hs <;> cases hs
    exact ⟨⟨[], by simp [Front.onConn]⟩, ⟨[], by simp [Front.onConn]⟩⟩
  | shut id =>
    simp only [Front.step] at hs
    split at hs <;> cases hs
    exact ⟨⟨[], by simp [Front.onConn]⟩, ⟨[], by simp [Front.onConn]⟩⟩
  | reset id =>
    simp only [Front.step, Option.some.injEq] at hs; subst hs
    exact ⟨⟨[], by simp [Front.onConn]⟩, ⟨[], by simp [Front.onConn]⟩⟩
  | accept =>
    simp only [Front.step] at hs
    split at hs
    · split at hs <;> cases hs
      exact ⟨⟨[], by simp⟩, ⟨[], by simp⟩⟩
    · cases hs
  | read k =>
    simp only [Front.step] at hs
    split at hs
    · split at hs
      · cases hs; exact ⟨⟨_, rfl⟩, ⟨[], by simp⟩⟩
      · split at hs
        · split at hs
          · simp only [Option.map_eq_some_iff] at hs
            obtain ⟨w, hw, rfl⟩ := hs
            exact ⟨⟨_, rfl⟩, ⟨_, requests_connect h.world hw⟩⟩
          · cases hs
        · split at hs <;> cases hs
          exact ⟨⟨[], by simp⟩, ⟨[], by simp⟩⟩
    · cases hs
  | other a =>
    have key : (∀ b, a ≠ .connect b) ∧ ∃ w, f.world.step E a = some w ∧ f' = { f with world := w } := by
      cases a <;> simp only [Front.step, Option.map_eq_some_iff, reduceCtorEq] at hs <;>
        exact ⟨(fun b he => by cases he), hs.choose, hs.choose_spec.1, hs.choose_spec.2.symm⟩
    obtain ⟨ha, w, hw, rfl⟩ := key
    exact ⟨⟨[], by simp⟩, ⟨[], by simpa using requests_other h.world hw ha⟩⟩

/-- What a step does to the connection which is being read. -/
theorem Front.Inv.current_step {f f' : Front} {a : FrontAct} {c : Conn} {buf : Bytes} (h : f.Inv E)
    (hc : f.current = some (c, buf)) (hr : a ≠ .reset c.id) (hst : c.state ≠ .reset) (hs : f.step E a = some f') :
    (c.state = .shut ∧ c.unread = [] ∧ (∃ k, a = .read k) ∧
      Pizauth.requests f'.world.log = Pizauth.requests f.world.log ++ [f.sent c.id]) ∨
    (f'.done = f.done ∧ Pizauth.requests f'.world.log = Pizauth.requests f.world.log ∧
      ∃ c' buf', f'.current = some (c', buf') ∧ c'.id = c.id ∧ (c.state = .shut → f'.sent c.id = f.sent c.id) ∧
        (a ≠ .shut c.id → c'.state = c.state) ∧ (c.state = .shut → c'.state = .shut) ∧
        (c.state = .shut → c'.unread.length + reads [a] ≤ c.unread.length)) := by
  have inv := h.step hs
  have hcm : c ∈ f.conns := by simp [Front.conns, hc]
  have uniq : ∀ {d : Conn}, d ∈ f.conns → d.id = c.id → d = c := by
    intro d hd he
    have hn := (List.nodup_append.mp h.nodup).2.1
    simp only [Front.conns, hc, Option.map_some, Option.toList_some, List.singleton_append, List.map_cons,
      List.nodup_cons] at hn
    simp only [Front.conns, hc, Option.map_some, Option.toList_some, List.singleton_append, List.mem_cons] at hd
    rcases hd with rfl | hd
    · rfl
    · exact absurd (List.mem_map.mpr ⟨d, hd, he⟩) hn.1
  cases a with
  | connect =>
    simp only [Front.step, Option.some.injEq] at hs; subst hs
    exact .inr ⟨rfl, rfl, c, buf, hc, rfl, fun _ => rfl, fun _ => rfl, id, fun _ => by simp [reads]⟩
  | send i b =>
    simp only [Front.step] at hs
    split at hs
    · rename_i ho
      cases hs
      obtain ⟨d, hd, hi, hopen⟩ := Front.isOpen_mem ho
      right
      refine ⟨rfl, rfl, if c.id = i then { c with unread := c.unread ++ b } else c, buf, ?_, ?_, ?_, ?_, ?_, ?_⟩
      · simp [Front.onConn, hc]
      · split <;> rfl
      · intro hs
        show (if c.id = i then _ else _) = _
        rw [if_neg]
        intro he
        rw [uniq hd (hi.trans he.symm), hs] at hopen
        cases hopen
      · intro _; split <;> rfl
      · intro hs; split <;> exact hs
      · intro hs
        rw [if_neg]
        · simp [reads]
        · intro he
          rw [uniq hd (hi.trans he.symm), hs] at hopen
          cases hopen
    · cases hs
  | shut i =>
    simp only [Front.step] at hs
    split at hs
    · cases hs
      right
      refine ⟨rfl, rfl, if c.id = i then { c with state := .shut } else c, buf, ?_, ?_, fun _ => rfl, ?_, ?_, ?_⟩
      · simp [Front.onConn, hc]
      · split <;> rfl
      · intro hne; rw [if_neg]; intro he; exact hne (by rw [he])
      · intro hs; split
        · rfl
        · exact hs
      · intro _; split <;> simp [reads]
    · cases hs
  | reset i =>
    simp only [Front.step, Option.some.injEq] at hs; subst hs
    have hne : c.id ≠ i := fun he => hr (by rw [he])
    exact .inr ⟨rfl, rfl, c, buf, by simp [Front.onConn, hc, hne], rfl, fun _ => rfl, fun _ => rfl, id,
      fun _ => by simp [reads]⟩
  | accept =>
    simp [Front.step, hc] at hs
  | read k =>
    simp only [Front.step] at hs
    split at hs
    · rename_i c' buf' hp hc'
      rw [hc] at hc'
      cases hc'
      split at hs
      · rename_i he; exact absurd he hst
      · split at hs
        · rename_i hu
          split at hs
          · rename_i hsh
            simp only [Option.map_eq_some_iff] at hs
            obtain ⟨w, hw, rfl⟩ := hs
            have hu := List.isEmpty_iff.mp hu
            have := h.current c buf hc
            rw [hu, List.append_nil] at this
            exact .inl ⟨hsh, hu, ⟨k, rfl⟩, by rw [← this]; exact requests_connect h.world hw⟩
          · cases hs
        · split at hs
          · rename_i hk
            cases hs
            refine .inr ⟨rfl, rfl, _, _, rfl, rfl, fun _ => rfl, fun _ => rfl, id, fun _ => ?_⟩
            simp only [List.length_drop, reads, List.filter_cons, List.filter_nil, if_true, List.length_singleton]
            omega
          · cases hs
    · cases hs
  | other a =>
    have key : (∀ b, a ≠ .connect b) ∧ ∃ w, f.world.step E a = some w ∧ f' = { f with world := w } := by
      cases a <;> simp only [Front.step, Option.map_eq_some_iff, reduceCtorEq] at hs <;>
        exact ⟨(fun b he => by cases he), hs.choose, hs.choose_spec.1, hs.choose_spec.2.symm⟩
    obtain ⟨ha, w, hw, rfl⟩ := key
    exact .inr ⟨rfl, requests_other h.world hw ha, c, buf, hc, rfl, fun _ => rfl, fun _ => rfl, id,
      fun _ => by simp [reads]⟩

end Pizauth
