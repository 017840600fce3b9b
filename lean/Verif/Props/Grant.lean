import Verif.Proof.Grant
import Verif.Props.Requests

/-!
# C82: a token which has been replaced does not come back
-/

namespace Pizauth
open LockedState

variable {E : Env}

/-- **C82.** If an account holds a token which is not being refreshed, then any token which it holds later is that very
token, or was granted in between: the answer of its token server (or the restored dump) is in the part `L` of the log
written since. -/
theorem C82 {w0 w : World} {n : String} {t0 t : ActiveTok} (hr : Reach E w0) (h0 : HoldsToken w0.ls n t0)
    (hg : t0.ongoing = false) (hs : Steps E w0 w) (h : HoldsToken w.ls n t) :
    ∃ L a, w.log = L ++ w0.log ∧ w.ls.config.get? n = some a ∧
      (t.info = t0.info ∨ GrantedIn E w.st n a L t.accessToken t.refreshToken) := by
  obtain ⟨L, hl, hn⟩ := new_of_steps hr h0 hg hs
  obtain ⟨e, he, hname, hts⟩ := h
  obtain ⟨a, ha⟩ := (hs.reach hr).inv0.wf.has he
  have := hn.entries e a ha hname
  unfold EntryNew at this
  rw [hts] at this
  exact ⟨L, a, hl, hname ▸ ha.2, this⟩

/-- **C82**, for a token which has just been stored (in place of whatever the account held before): from then on, the
account holds it, or a token which was granted later. -/
theorem C82_replaced {w1 w2 w : World} {act : Action} {n : String} {t2 t : ActiveTok} (hr : Reach E w1)
    (hstep : w1.step E act = some w2) (h2 : HoldsToken w2.ls n t2)
    (hnew : ∀ t1, HoldsToken w1.ls n t1 → t1.info ≠ t2.info) (hs : Steps E w2 w) (h : HoldsToken w.ls n t) :
    ∃ L a, w.log = L ++ w2.log ∧ w.ls.config.get? n = some a ∧
      (t.info = t2.info ∨ GrantedIn E w.st n a L t.accessToken t.refreshToken) :=
  C82 (.step act hr hstep) h2 ((stepR_of_step hr.inv0.wf hstep).2.new_not_ongoing hr.inv0 h2 hnew) hs h

/-- **C82**, for the client: after a token was stored in place of another one, `show` only gives out this token, or one
which was granted later. In particular it does not give out the one which was replaced, unless it was granted again. -/
theorem C82_shown {w1 w2 w w' : World} {act : Action} {buf : Bytes} {u : Bool} {n tok : String} {t2 : ActiveTok}
    (hr : Reach E w1) (hstep : w1.step E act = some w2) (h2 : HoldsToken w2.ls n t2)
    (hnew : ∀ t1, HoldsToken w1.ls n t1 → t1.info ≠ t2.info) (hs : Steps E w2 w) (hx : Executes E w buf w')
    (hp : parseReq buf = .showtoken u n) (hm : .reply (utf8 ("access_token:" ++ tok)) ∈ w'.threads 0) :
    ∃ L a, w.log = L ++ w2.log ∧ w.ls.config.get? n = some a ∧
      (tok = t2.accessToken ∨ ∃ rt, GrantedIn E w.st n a L tok rt) := by
  obtain ⟨hrw, hth, inp, hst⟩ := hx
  obtain ⟨f, hx, rfl⟩ := hrw.handled hth hst (by rw [hp]; simp)
  rw [apply_threads_self hrw.inv0.tid0] at hm
  have hm' : .reply (utf8 ("access_token:" ++ tok)) ∈ f.next := by simpa using hm
  obtain ⟨e, a, t, ha, hn, hts, _, rfl, _⟩ := hx.tok_reply hp hm'
  obtain ⟨L, a', h1, h3, h4⟩ := C82_replaced hr hstep h2 hnew hs ⟨e, ha.1, hn, hts⟩
  refine ⟨L, a', h1, h3, h4.imp (fun h => ?_) fun h => ⟨_, h⟩⟩
  exact congrArg TokInfo.tok h

/-! ## Concrete cases -/

section Example
open Demo

/-- Just before the answer to a refresh is stored. -/
def sStoring : List Action := sRefresh ++ [.run 2 {}, .run 2 { net := .body answer2 }, .run 2 {}]

def oldTok : ActiveTok := (holdsTok (after sStoring) "a").getD default
def newTok : ActiveTok := (holdsTok (andThen (after sStoring) [.run 2 {}]) "a").getD default

/-- `T1` is replaced by `T2` in one step. Later a client asks for the token; `T1` is not what is held. -/
example : Reach env (after sStoring) ∧ HoldsToken (after sStoring).ls "a" oldTok ∧ oldTok.accessToken = "T1" ∧
    (after sStoring).step env (.run 2 {}) = some (andThen (after sStoring) [.run 2 {}]) ∧
    HoldsToken (andThen (after sStoring) [.run 2 {}]).ls "a" newTok ∧ newTok.accessToken = "T2" ∧
    (∀ t1, HoldsToken (after sStoring).ls "a" t1 → t1.info ≠ newTok.info) ∧
    (holdsTok (after (sRefreshed ++ [.connect showA])) "a").map (·.accessToken) = some "T2" := by
  have ho : HoldsToken (after sStoring).ls "a" oldTok := holdsTok_holds (by decide +kernel)
  refine ⟨after_reach _, ho, by decide +kernel, andThen_one (by decide +kernel), holdsTok_holds (by decide +kernel),
    by decide +kernel, ?_, by decide +kernel⟩
  rintro t1 ⟨e1, he1, hn1, hts1⟩ h
  obtain ⟨e0, he0, hn0, hts0⟩ := ho
  have := (after_reach sStoring).inv0.wf.entry_name_inj he1 he0 (hn1.trans hn0.symm)
  subst this
  rw [hts0] at hts1
  cases hts1
  exact absurd (congrArg TokInfo.tok h) (by decide +kernel)

/-- C82 itself, between a token and the refreshed one. -/
example : ∃ t0 t, HoldsToken (after sToken).ls "a" t0 ∧ t0.ongoing = false ∧
    HoldsToken (after sRefreshed).ls "a" t ∧ t.accessToken ≠ t0.accessToken :=
  ⟨(holdsTok (after sToken) "a").getD default, (holdsTok (after sRefreshed) "a").getD default,
    holdsTok_holds (by decide +kernel), by decide +kernel, holdsTok_holds (by decide +kernel), by decide +kernel⟩

end Example
end Pizauth
