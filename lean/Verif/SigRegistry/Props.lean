import Verif.SigRegistry.Lemmas
/-!
# Properties of the signature registry (C10, C11, C12)
-/

namespace Verif.SigRegistry

open Spec

/-- One request against the storage representation. -/
def stepModel (window cap : Nat) (reg : Registry) (r : Req) : Except RegError Registry :=
  register window cap reg r.now r.sig r.exp

/-- One request against the queue specification. -/
def stepSpec (window cap : Nat) (q : Queue) (r : Req) : Except RegError Queue :=
  Spec.register window cap q r.now r.sig r.exp

theorem outcomes_refine {window cap : Nat} (hcap : 2 ≤ cap) (h : List Req) :
    ∀ {reg : Registry} {q : Queue}, Rep cap reg q →
      outcomes (stepModel window cap) reg h = outcomes (stepSpec window cap) q h ∧
      accepted (stepModel window cap) reg h = accepted (stepSpec window cap) q h ∧
      Rep cap (final (stepModel window cap) reg h) (final (stepSpec window cap) q h) := by
  induction h with
  | nil => intro reg q hr; exact ⟨rfl, rfl, hr⟩
  | cons r rs ih =>
    intro reg q hr
    have href := register_refines (window := window) hcap hr r.now r.sig r.exp
    simp only [outcomes, accepted, final, stepModel, stepSpec]
    cases hm : register window cap reg r.now r.sig r.exp with
    | error e =>
      rw [hm] at href
      simp only at href
      rw [href]
      simp only
      obtain ⟨h1, h2, h3⟩ := ih hr
      exact ⟨by rw [h1], h2, h3⟩
    | ok reg' =>
      rw [hm] at href
      obtain ⟨q', hq', hr'⟩ := href
      rw [hq']
      simp only
      obtain ⟨h1, h2, h3⟩ := ih hr'
      exact ⟨by rw [h1], by rw [h2], h3⟩

/-- C11: on every history, from genesis, the linked-list registry answers every request
exactly as a first-in first-out queue of `cap` signatures does. -/
theorem C11_registry_is_bounded_queue (window cap : Nat) (hcap : 2 ≤ cap) (h : List Req) :
    outcomes (stepModel window cap) Registry.init h = outcomes (stepSpec window cap) [] h :=
  (outcomes_refine hcap h (rep_init cap)).1

/-- The hypothesis is met by the runtime's setting (50 000 signatures, window 100) and the history
below really fills, evicts and rejects (capacity 2). -/
example : outcomes (stepModel 100 2) Registry.init
    [⟨1, 7, 10⟩, ⟨1, 8, 20⟩, ⟨5, 7, 10⟩, ⟨5, 9, 30⟩, ⟨11, 9, 30⟩, ⟨12, 9, 30⟩, ⟨12, 7, 10⟩] =
    [none, none, some .signatureAlreadySubmitted, some .signatureRegistryLimitExceeded, none,
      some .signatureAlreadySubmitted, some .proofHasExpired] := by decide

/-- C11: the corruption error is never returned. -/
theorem C11_never_corrupted (window cap : Nat) (hcap : 2 ≤ cap) (h : List Req) :
    some RegError.signatureRegistryCorrupted ∉ outcomes (stepModel window cap) Registry.init h := by
  rw [C11_registry_is_bounded_queue window cap hcap h]
  generalize ([] : Queue) = q
  induction h generalizing q with
  | nil => simp [outcomes]
  | cons r rs ih =>
    simp only [outcomes]
    split
    · simp only [List.mem_cons, reduceCtorEq, false_or]; exact ih _
    · rename_i e he
      simp only [List.mem_cons, Option.some.injEq, not_or]
      refine ⟨?_, ih _⟩
      intro hc
      subst hc
      simp only [stepSpec, Spec.register] at he
      split at he
      · simp at he
      split at he
      · simp at he
      split at he
      · simp at he
      split at he
      · simp at he
      split at he
      · simp at he
      · split at he <;> simp at he

/-- C11: with the capacity configured as one the second signature finds the registry corrupted:
the assumption `2 ≤ cap` is needed. -/
theorem C11_capacity_one_corrupts :
    outcomes (stepModel 100 1) Registry.init [⟨1, 7, 10⟩, ⟨20, 8, 30⟩] =
      [none, some .signatureRegistryCorrupted] := by decide

/-- C11: with the capacity unset (`None`, i.e. zero) nothing can ever be registered. -/
theorem C11_capacity_zero_corrupts (window : Nat) (r : Req) (h1 : r.exp < r.now + window)
    (h2 : r.now < r.exp) :
    outcomes (stepModel window 0) Registry.init [r] = [some .signatureRegistryCorrupted] := by
  have h1' : r.now + window > r.exp := h1
  simp [outcomes, stepModel, register, mortalityLimit, ensure, h1', h2, Registry.init, enqueue,
    SMap.contains, okOr, bind, Except.bind]

/-- Number of linked entries of a queue. -/
theorem linked_keys {q : Queue} (hn : (q.map Prod.fst).Nodup) (l : SMap Signature (BlockNumber × Signature))
    (hl : ∀ k, l.get k = linked q k) : l.size = q.length - 1 := by
  induction q generalizing l with
  | nil =>
    obtain ⟨es, hes⟩ := l
    cases es with
    | nil => rfl
    | cons e es =>
      have := hl e.1
      simp [SMap.get, alookup, linked] at this
  | cons a rest ih =>
    obtain ⟨s, e⟩ := a
    have h1 := ih (by simp only [List.map_cons, List.nodup_cons] at hn; exact hn.2) (l.erase s) (by
      intro k
      rw [SMap.get_erase, hl, ← linked_tail hn])
    cases rest with
    | nil =>
      have : l.get s = none := by rw [hl]; rfl
      rw [SMap.size_erase_of_none l this] at h1
      simpa using h1
    | cons b rest =>
      obtain ⟨s', e'⟩ := b
      have : l.get s = some (e, s') := by rw [hl]; simp [linked]
      have h2 := SMap.size_erase_of_some l this
      simp only [List.length_cons] at h1 ⊢
      omega

/-- C11: the storage list never holds more than `cap - 1` entries (one more signature sits in the
pointer), after any history. -/
theorem C11_storage_bounded (window cap : Nat) (hcap : 2 ≤ cap) (h : List Req) :
    (final (stepModel window cap) Registry.init h).list.size < cap := by
  have hr := (outcomes_refine (window := window) hcap h (rep_init cap)).2.2
  have := linked_keys hr.nodup _ hr.links
  have := hr.bounded
  omega

/-- C11: a registration is refused for lack of room only when `cap` other signatures were accepted
and are still held, and the oldest of them has not expired. -/
theorem C11_limit_error_only_when_full (window cap : Nat) (hcap : 2 ≤ cap) (h : List Req) (r : Req)
    (he : stepModel window cap (final (stepModel window cap) Registry.init h) r =
      .error .signatureRegistryLimitExceeded) :
    ∃ oldest rest, final (stepSpec window cap) [] h = oldest :: rest ∧
      (oldest :: rest).length = cap ∧ r.now ≤ oldest.2 := by
  have hr := (outcomes_refine (window := window) hcap h (rep_init cap)).2.2
  have href := register_refines (window := window) hcap hr r.now r.sig r.exp
  simp only [stepModel] at he
  rw [show register window cap (final (stepModel window cap) Registry.init h) r.now r.sig r.exp =
    Except.error RegError.signatureRegistryLimitExceeded from he] at href
  simp only [Spec.register] at href
  split at href; · simp at href
  split at href; · simp at href
  split at href; · simp at href
  split at href; · simp at href
  rename_i hlen
  have hb := hr.bounded
  cases hq : final (stepSpec window cap) [] h with
  | nil => rw [hq] at hlen; simp at hlen; omega
  | cons a rest =>
    obtain ⟨s, e⟩ := a
    rw [hq] at href hlen hb
    simp only at href
    split at href
    · simp at href
    · rename_i hne
      exact ⟨(s, e), rest, rfl, by omega, by simpa using hne⟩

example : stepModel 100 2 (final (stepModel 100 2) Registry.init [⟨1, 7, 10⟩, ⟨1, 8, 20⟩]) ⟨5, 9, 30⟩ =
    .error .signatureRegistryLimitExceeded := by rfl

/-- C12: an accepted proof lies strictly inside the mortality window, for every registry state
whatever (reachable or not). -/
theorem C12_window (window cap : Nat) (reg reg' : Registry) (now : BlockNumber) (sig : Signature) (exp : BlockNumber)
    (h : register window cap reg now sig exp = .ok reg') : now < exp ∧ exp < now + window := by
  simp only [register, bind_eq_ok_iff, ensure_eq_ok_iff] at h
  obtain ⟨_, h1, _, h2, _⟩ := h
  exact ⟨h2, h1⟩

/-- C12: outside the window the proof is refused with the matching error, in every state. -/
theorem C12_refused_outside (window cap : Nat) (reg : Registry) (now : BlockNumber) (sig : Signature)
    (exp : BlockNumber) :
    (now + window ≤ exp → register window cap reg now sig exp = .error .proofNotYetValid) ∧
    (exp ≤ now → exp < now + window →
      register window cap reg now sig exp = .error .proofHasExpired) := by
  constructor
  · intro h
    have : ¬ (now + window > exp) := by omega
    simp [register, mortalityLimit, ensure, this, bind, Except.bind]
  · intro h h'
    have h1 : now + window > exp := h'
    have h2 : ¬ now < exp := by omega
    simp [register, mortalityLimit, ensure, h1, h2, bind, Except.bind]

example : ∃ reg', register 100 50000 Registry.init 5 1 104 = .ok reg' := ⟨_, rfl⟩

/-- Invariant behind replay protection: every accepted pair is still queued or has expired. -/
theorem accepted_nodup_aux (window cap : Nat) (h : List Req) :
    ∀ (q : Queue) (now0 : BlockNumber) (past : List (Signature × BlockNumber)),
      (∀ p ∈ past, p ∈ q ∨ p.2 < now0) → (∀ r ∈ h, now0 ≤ r.now) → Chronological h →
      ((accepted (stepSpec window cap) q h).map (fun r => (r.sig, r.exp))).Nodup ∧
      ∀ r ∈ accepted (stepSpec window cap) q h, (r.sig, r.exp) ∉ past := by
  induction h with
  | nil => intro q now0 past _ _ _; simp [accepted]
  | cons r rs ih =>
    intro q now0 past hp hnow hch
    have hch' := List.pairwise_cons.1 hch
    have hr0 := hnow r (by simp)
    simp only [accepted]
    cases hs : stepSpec window cap q r with
    | error e =>
      exact ih q r.now past (fun p hpm => (hp p hpm).imp id (fun h => by omega))
        (fun r' hr' => hch'.1 r' hr') hch'.2
    | ok q' =>
      simp only [stepSpec, Spec.register] at hs
      split at hs; · simp at hs
      rename_i hw
      split at hs; · simp at hs
      rename_i hlt
      simp only [not_not] at hw hlt
      split at hs; · simp at hs
      rename_i hnm
      have hnp : (r.sig, r.exp) ∉ past := by
        intro hm
        rcases hp _ hm with h | h
        · exact hnm (List.mem_map.2 ⟨_, h, rfl⟩)
        · simp at h; omega
      -- the queue afterwards
      have hq' : (r.sig, r.exp) ∈ q' ∧ ∀ p ∈ q, p ∈ q' ∨ p.2 < r.now := by
        split at hs
        · simp at hs; subst hs
          exact ⟨by simp, fun p hp => Or.inl (by simp [hp])⟩
        · split at hs
          · simp at hs
          · rename_i s0 e0 rest
            split at hs
            · rename_i hexp
              simp at hs; subst hs
              refine ⟨by simp, fun p hp => ?_⟩
              rcases List.mem_cons.1 hp with h | h
              · right; rw [h]; exact hexp
              · left; simp [h]
            · simp at hs
      obtain ⟨hn1, hn2⟩ := ih q' r.now ((r.sig, r.exp) :: past)
        (by
          intro p hpm
          rcases List.mem_cons.1 hpm with h | h
          · left; rw [h]; exact hq'.1
          · rcases hp p h with h | h
            · exact hq'.2 p h
            · right; omega)
        (fun r' hr' => hch'.1 r' hr') hch'.2
      constructor
      · simp only [List.map_cons, List.nodup_cons]
        refine ⟨?_, hn1⟩
        intro hm
        obtain ⟨r', hr', he⟩ := List.mem_map.1 hm
        have := hn2 r' hr'
        rw [he] at this
        exact this (by simp)
      · intro r' hr'
        rcases List.mem_cons.1 hr' with h | h
        · rw [h]; exact hnp
        · intro hm
          exact hn2 r' h (List.mem_cons_of_mem _ hm)

/-- C10 (registry level): in any history with non-decreasing block numbers, of any length and with
any number of evictions, no (signature, expiration) pair is accepted twice. -/
theorem C10_registry_no_replay (window cap : Nat) (hcap : 2 ≤ cap) (h : List Req)
    (hch : Chronological h) :
    ((accepted (stepModel window cap) Registry.init h).map (fun r => (r.sig, r.exp))).Nodup := by
  rw [(outcomes_refine (window := window) hcap h (rep_init cap)).2.1]
  exact (accepted_nodup_aux window cap h [] 0 [] (by simp) (by simp) hch).1

/-- C10: hence, if every signature is valid for one expiration only, no signature at all is
accepted twice. -/
theorem C10_registry_signature_single_use (window cap : Nat) (hcap : 2 ≤ cap) (h : List Req)
    (hch : Chronological h) (expOf : Signature → BlockNumber) (hexp : ∀ r ∈ h, r.exp = expOf r.sig) :
    ((accepted (stepModel window cap) Registry.init h).map (fun r => r.sig)).Nodup := by
  have h1 := C10_registry_no_replay window cap hcap h hch
  have hsub : ∀ (reg : Registry) (h : List Req) (r : Req),
      r ∈ accepted (stepModel window cap) reg h → r ∈ h := by
    intro reg h
    induction h generalizing reg with
    | nil => intro r hr; simp [accepted] at hr
    | cons a as ih =>
      intro r hr
      simp only [accepted] at hr
      split at hr
      · rcases List.mem_cons.1 hr with h | h
        · simp [h]
        · exact List.mem_cons_of_mem _ (ih _ _ h)
      · exact List.mem_cons_of_mem _ (ih _ _ hr)
  have heq : (accepted (stepModel window cap) Registry.init h).map (fun r => (r.sig, r.exp)) =
      ((accepted (stepModel window cap) Registry.init h).map (fun r => r.sig)).map
        (fun s => (s, expOf s)) := by
    rw [List.map_map]
    apply List.map_congr_left
    intro r hr
    simp [hexp r (hsub _ _ _ hr)]
  rw [heq] at h1
  exact List.Nodup.of_map _ h1

/-- A history in which a signature is evicted and resubmitted meets the hypotheses. -/
example : Chronological [⟨1, 7, 10⟩, ⟨1, 8, 20⟩, ⟨11, 9, 30⟩, ⟨12, 7, 10⟩] ∧
    (accepted (stepModel 100 2) Registry.init
      [⟨1, 7, 10⟩, ⟨1, 8, 20⟩, ⟨11, 9, 30⟩, ⟨12, 7, 10⟩]).map (fun r => r.sig) = [7, 8, 9] := by
  constructor
  · simp [Chronological]
  · decide

end Verif.SigRegistry
