import Verif.Chain.Props
import Verif.Handles.PropsOrder
/-!
# C167 on the chain
-/

namespace Verif.Chain

/-- A transaction with a call of the handles pallet. -/
def handleTx (bal : AccountId → Balance) (x : AccountId × HandleCall) : Step := .submit bal x.1 (.handles x.2)

/-- The operation of the handles pallet: a transaction, so retirement passes the extension first. -/
def handleOp (x : AccountId × HandleCall) : Handles.Op :=
  match x.2 with
  | .claim owner sig p => .claim owner sig p
  | .change owner sig p => .change owner sig p
  | .retire => .retire x.1

theorem run_handleTx (cfg : Config) (bal : AccountId → Balance) (h : List (AccountId × HandleCall)) (s : State) :
    run cfg s (h.map (handleTx bal)) =
      { s with handles := Handles.run cfg.handles s.handles (Handles.inBlock (handlesEnv cfg s) (h.map handleOp)) } := by
  induction h generalizing s with
  | nil => rfl
  | cons x h ih =>
    have e : apply cfg s (handleTx bal x) =
        { s with handles := Handles.apply cfg.handles s.handles ⟨handlesEnv cfg s, handleOp x⟩ } := by
      obtain ⟨who, c⟩ := x
      cases c with
      | claim owner sig p =>
        simp only [apply, handleTx, extensions, if_true, dispatch, handleOp, Handles.apply, Origin.signer, HandleCall.op]
        show (((Handles.dispatch cfg.handles s.handles ⟨handlesEnv cfg s, .claim owner sig p⟩).toOption >>= _).getD s) = _
        cases Handles.dispatch cfg.handles s.handles ⟨handlesEnv cfg s, .claim owner sig p⟩ <;> rfl
      | change owner sig p =>
        simp only [apply, handleTx, extensions, if_true, dispatch, handleOp, Handles.apply, Origin.signer, HandleCall.op]
        show (((Handles.dispatch cfg.handles s.handles ⟨handlesEnv cfg s, .change owner sig p⟩).toOption >>= _).getD s) = _
        cases Handles.dispatch cfg.handles s.handles ⟨handlesEnv cfg s, .change owner sig p⟩ <;> rfl
      | retire =>
        have hv : (∃ e, Handles.validateRetire (handlesEnv cfg s) s.handles who = .error e) ∨
            Handles.validateRetire (handlesEnv cfg s) s.handles who = .ok () := by
          cases Handles.validateRetire (handlesEnv cfg s) s.handles who <;> simp
        have hr : (∃ e, Handles.retire cfg.handles (handlesEnv cfg s) s.handles who = .error e) ∨
            ∃ t, Handles.retire cfg.handles (handlesEnv cfg s) s.handles who = .ok t := by
          cases Handles.retire cfg.handles (handlesEnv cfg s) s.handles who <;> simp
        rcases hv with ⟨e, hv⟩ | hv <;> rcases hr with ⟨e', hr⟩ | ⟨t, hr⟩ <;>
          simp [apply, handleTx, extensions, dispatch, handleOp, Handles.apply, Origin.signer, HandleCall.op, Handles.dispatch,
            Except.isOk, Except.toBool, Except.toOption, bind, Except.bind, hv, hr]
    show run cfg (apply cfg s (handleTx bal x)) (h.map (handleTx bal)) = _
    rw [e, ih]
    rfl

/-- C167, on the chain: transactions with calls of the handles pallet about different accounts. If all succeed in one order then
they do in every order, every account has a handle of the same name afterwards or none, and nothing else changes. -/
theorem C167_chain (cfg : Config) (bal : AccountId → Balance) (s : State) (hr : Handles.RangeOk (handlesEnv cfg s).hi)
    (h h' : List (AccountId × HandleCall)) (hp : h.Perm h')
    (hd : (h.map handleOp).Pairwise (Handles.Others (handlesEnv cfg s)))
    (ha : Handles.AllOk cfg.handles s.handles (Handles.inBlock (handlesEnv cfg s) (h.map handleOp))) :
    let t := run cfg s (h.map (handleTx bal))
    let t' := run cfg s (h'.map (handleTx bal))
    Handles.AllOk cfg.handles s.handles (Handles.inBlock (handlesEnv cfg s) (h'.map handleOp)) ∧
    (∀ m, Handles.nameOf t.handles m = Handles.nameOf t'.handles m) ∧
    { t with handles := s.handles } = s ∧ { t' with handles := s.handles } = s := by
  simp only [run_handleTx]
  exact ⟨Handles.C167_all _ _ hr _ _ _ (hp.map _) hd ha, fun m => Handles.C167_names _ _ hr _ _ _ (hp.map _) hd ha m, trivial, trivial⟩

/-- Two keys of different accounts, in one block: the hypotheses are met. -/
example :
    let s := run exCfg (.init 1024) (exHist.take 10)
    let h : List (AccountId × HandleCall) :=
      [(10, .claim 10 10 ⟨utf8Encode "provider".toList, s.block + 5⟩), (20, .claim 20 20 ⟨utf8Encode "provider".toList, s.block + 5⟩)]
    msaOf s 10 = some 1 ∧ msaOf s 20 = some 2 ∧ (h.map handleOp).Pairwise (Handles.Others (handlesEnv exCfg s)) := by
  intro s h
  have h1 : msaOf s 10 = some 1 := by decide +kernel
  have h2 : msaOf s 20 = some 2 := by decide +kernel
  refine ⟨h1, h2, ?_⟩
  simp [h, handleOp, Handles.Others, Handles.signerOf, handlesEnv, h1, h2]

end Verif.Chain
