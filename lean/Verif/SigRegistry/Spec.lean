import Verif.SigRegistry.Model
/-!
# Specification: a bounded first-in first-out queue of (signature, expiration)

This file mentions nothing of the linked-list representation except the observable error
codes of `RegError`.
-/

namespace Verif.SigRegistry.Spec

/-- Queue contents, oldest first. -/
abbrev Queue := List (Signature × BlockNumber)

/-- What a registration should do to the queue. -/
def register (window cap : Nat) (q : Queue) (now : BlockNumber) (sig : Signature) (exp : BlockNumber) :
    Except RegError Queue :=
  if ¬ (exp < now + window) then .error .proofNotYetValid
  else if ¬ (now < exp) then .error .proofHasExpired
  else if sig ∈ q.map Prod.fst then .error .signatureAlreadySubmitted
  else if q.length < cap then .ok (q ++ [(sig, exp)])
  else match q with
    | [] => .error .signatureRegistryLimitExceeded
    | (_, oldExp) :: rest =>
      if oldExp < now then .ok (rest ++ [(sig, exp)])
      else .error .signatureRegistryLimitExceeded

/-- A registration request made at a block. -/
structure Req where
  now : BlockNumber
  sig : Signature
  exp : BlockNumber
  deriving DecidableEq, Repr

/-- BlockNumber numbers of a history never decrease. -/
def Chronological (h : List Req) : Prop := h.Pairwise (fun a b => a.now ≤ b.now)

/-- Outcome of every request of a history: `none` for accepted, otherwise the error. -/
def outcomes {σ : Type} (step : σ → Req → Except RegError σ) : σ → List Req → List (Option RegError)
  | _, [] => []
  | s, r :: rs =>
    match step s r with
    | .ok s' => none :: outcomes step s' rs
    | .error e => some e :: outcomes step s rs

/-- The accepted requests of a history, in order. -/
def accepted {σ : Type} (step : σ → Req → Except RegError σ) : σ → List Req → List Req
  | _, [] => []
  | s, r :: rs =>
    match step s r with
    | .ok s' => r :: accepted step s' rs
    | .error _ => accepted step s rs

/-- State after a history (failed requests change nothing). -/
def final {σ : Type} (step : σ → Req → Except RegError σ) : σ → List Req → σ
  | s, [] => s
  | s, r :: rs =>
    match step s r with
    | .ok s' => final step s' rs
    | .error _ => final step s rs

end Verif.SigRegistry.Spec
