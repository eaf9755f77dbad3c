import Verif.Collators.PropsSession
/-!
# C164: what is false of the chain

Root and council can name an account twice or only accounts without keys, and a candidate that is not among those with the
highest bonds is removed for making no blocks.
-/

namespace Verif.Collators
open Verif.Wrapped (put)
open Verif.Deposits (Purse existential)

/-- Nobody is chosen twice. -/
def C164_once : Prop := ∀ cfg, cfg = mainnet ∨ cfg = testnet → ∀ l b d p, Start cfg l → ∀ h slot,
  ((run cfg (genesis l b d p) h).now + 1) % 1800 = 0 →
  ((apply cfg (run cfg (genesis l b d p) h) (.block slot)).queued.map Prod.fst).Nodup

/-- Somebody is chosen at every turn. -/
def C164_some : Prop := ∀ cfg, cfg = mainnet ∨ cfg = testnet → ∀ l b d p, Start cfg l → ∀ h slot,
  ((run cfg (genesis l b d p) h).now + 1) % 1800 = 0 →
  (apply cfg (run cfg (genesis l b d p) h) (.block slot)).queued ≠ []

/-- A candidate that is not named is removed at a turn only if it was among the makers of the session that ends. -/
def C164_chance : Prop := ∀ cfg, cfg = mainnet ∨ cfg = testnet → ∀ l b d p, Start cfg l → ∀ h slot c,
  c ∈ (run cfg (genesis l b d p) h).cands → c.who ∉ (run cfg (genesis l b d p) h).invulnerables →
  c ∉ (apply cfg (run cfg (genesis l b d p) h) (.block slot)).cands →
  c.who ∈ (run cfg (genesis l b d p) h).validators

/-- C164 in full: besides what is proved, nobody is chosen twice, somebody is chosen, and candidates are removed for making no
blocks only if they could have made some. -/
def C164_full : Prop := C164_once ∧ C164_some ∧ C164_chance

/-! ## Quiet blocks -/

/-- What blocks without calls leave alone between two turns. -/
structure Quiet (n : Nat) (s s' : State) : Prop where
  now : s'.now = s.now + n
  invulnerables : s'.invulnerables = s.invulnerables
  cands : s'.cands = s.cands
  keys : s'.keys = s.keys
  desired : s'.desired = s.desired
  queued : s'.queued = s.queued
  validators : s'.validators = s.validators
  authored : ∀ a, a ∉ s.validators → s'.authored a = s.authored a

theorem noted_quiet (s : State) (slot : Nat) : Quiet 1 s (noted s slot) := by
  obtain ⟨-, -, h3, h4⟩ := noteAuthor_fields { s with now := s.now + 1 } slot
  refine ⟨noted_now s slot, h4.invulnerables, h3, h4.keys, h4.desired, h4.queued, h4.validators, fun a ha => ?_⟩
  unfold noted noteAuthor
  split
  · rfl
  · rename_i x hx
    show put s.authored x (s.now + 1) a = _
    unfold put
    rw [if_neg]
    rintro rfl
    exact ha (List.mem_of_getElem? hx)

theorem Quiet.trans {n m : Nat} {s s' s'' : State} (h : Quiet n s s') (h' : Quiet m s' s'') : Quiet (n + m) s s'' :=
  ⟨by rw [h'.1, h.1]; omega, h'.2.trans h.2, h'.3.trans h.3, h'.4.trans h.4, h'.5.trans h.5, h'.6.trans h.6, h'.7.trans h.7,
    fun a ha => (h'.8 a (by rw [h.7]; exact ha)).trans (h.8 a ha)⟩

theorem quiet (cfg : Config) : ∀ (n : Nat) (s : State), s.now % 1800 + n < 1800 →
    Quiet n s (run cfg s (List.replicate n (.block 0))) := by
  intro n
  induction n with
  | zero => intro s _; exact ⟨rfl, rfl, rfl, rfl, rfl, rfl, rfl, fun _ _ => rfl⟩
  | succ n ih =>
    intro s h
    rw [List.replicate_succ]
    show Quiet (n + 1) s (run cfg (block cfg s 0) (List.replicate n (.block 0)))
    rw [block_plain cfg s 0 (by unfold period; omega)]
    have h1 := noted_quiet s 0
    have h2 := ih (noted s 0) (by rw [h1.now]; omega)
    have := h1.trans h2
    rwa [show 1 + n = n + 1 by omega] at this

theorem run_run (cfg : Config) (s : State) (h h' : List Event) : run cfg s (h ++ h') = run cfg (run cfg s h) h' :=
  List.foldl_append

/-! ## Counterexamples -/

theorem start_one : Start mainnet [(1, 10)] := by unfold Start; decide

/-- Root or council name account 1 twice: it is chosen twice. -/
theorem C164_once_false : ¬ C164_once := by
  intro h
  obtain ⟨k, hk⟩ : ∃ k, k = 1799 := ⟨_, rfl⟩
  have h0 := h mainnet (.inl rfl) [(1, 10)] 100 0 (fun _ => 5 * 10 ^ 6) start_one
    ([.call .update (.setInvulnerables [1, 1])] ++ List.replicate k (.block 0)) 0
  rw [run_run] at h0
  have z : (run mainnet (genesis [(1, 10)] 100 0 (fun _ => 5 * 10 ^ 6)) [.call .update (.setInvulnerables [1, 1])]).now = 0 := rfl
  have q := quiet mainnet k (run mainnet (genesis [(1, 10)] 100 0 (fun _ => 5 * 10 ^ 6)) [.call .update (.setInvulnerables [1, 1])])
    (by rw [z]; omega)
  generalize run mainnet (run mainnet (genesis [(1, 10)] 100 0 (fun _ => 5 * 10 ^ 6)) [.call .update (.setInvulnerables [1, 1])])
    (List.replicate k (.block 0)) = s at q h0
  have hn : s.now = 1799 := by rw [q.now, z, hk]
  have hi : s.invulnerables = [1, 1] := q.invulnerables.trans (by decide +kernel)
  have hc : s.cands = [] := q.cands.trans (by decide +kernel)
  have hk : s.keys 1 = some 10 := by rw [q.keys]; decide +kernel
  have h0 := h0 (by rw [hn])
  rw [show apply mainnet s (.block 0) = rotate mainnet (noted s 0) from block_turn mainnet s 0 (by rw [hn]; decide)] at h0
  have n := noted_quiet s 0
  have hq : (rotate mainnet (noted s 0)).queued = [(1, 10), (1, 10)] := by
    show (assemble (kickStale mainnet (noted s 0))).filterMap (fun a => ((noted s 0).keys a).map (fun k => (a, k))) = _
    have hks : kickStale mainnet (noted s 0) = noted s 0 := by unfold kickStale; rw [n.cands, hc]; rfl
    rw [hks]
    unfold assemble
    rw [n.cands, hc, n.invulnerables, hi, n.keys]
    simp [hk]
  rw [hq] at h0
  exact absurd h0 (by decide)

/-- Root or council name account 2, which has no keys, in place of account 1: nobody is chosen. -/
theorem C164_some_false : ¬ C164_some := by
  intro h
  obtain ⟨k, hk⟩ : ∃ k, k = 1799 := ⟨_, rfl⟩
  have h0 := h mainnet (.inl rfl) [(1, 10)] 100 0 (fun _ => 5 * 10 ^ 6) start_one
    ([.call .update (.setInvulnerables [2])] ++ List.replicate k (.block 0)) 0
  rw [run_run] at h0
  have z : (run mainnet (genesis [(1, 10)] 100 0 (fun _ => 5 * 10 ^ 6)) [.call .update (.setInvulnerables [2])]).now = 0 := rfl
  have q := quiet mainnet k (run mainnet (genesis [(1, 10)] 100 0 (fun _ => 5 * 10 ^ 6)) [.call .update (.setInvulnerables [2])])
    (by rw [z]; omega)
  generalize run mainnet (run mainnet (genesis [(1, 10)] 100 0 (fun _ => 5 * 10 ^ 6)) [.call .update (.setInvulnerables [2])])
    (List.replicate k (.block 0)) = s at q h0
  have hn : s.now = 1799 := by rw [q.now, z, hk]
  have hi : s.invulnerables = [] := q.invulnerables.trans (by decide +kernel)
  have hc : s.cands = [] := q.cands.trans (by decide +kernel)
  have h0 := h0 (by rw [hn])
  rw [show apply mainnet s (.block 0) = rotate mainnet (noted s 0) from block_turn mainnet s 0 (by rw [hn]; decide)] at h0
  have n := noted_quiet s 0
  apply h0
  show (assemble (kickStale mainnet (noted s 0))).filterMap _ = _
  have hks : kickStale mainnet (noted s 0) = noted s 0 := by unfold kickStale; rw [n.cands, hc]; rfl
  rw [hks]
  unfold assemble
  rw [n.cands, hc, n.invulnerables, hi]
  simp

/-- A turn with one candidate that is not named. -/
theorem turn_one {s : State} {c : Cand} (hc : s.cands = [c]) (hi : s.invulnerables = [1]) (h1 : c.who ≠ 1)
    (hd : s.desired = 0) (hk : s.keys 1 = some 10) (ht : (s.now + 1) % 1800 = 0) (hv : c.who ∉ s.validators) :
    (s.now + 1 - s.authored c.who < 1800 → (block mainnet s 0).cands = [c] ∧ (block mainnet s 0).authored c.who = s.authored c.who ∧
      (block mainnet s 0).invulnerables = [1] ∧ (block mainnet s 0).desired = 0 ∧ (block mainnet s 0).keys 1 = some 10 ∧
      (block mainnet s 0).now = s.now + 1 ∧ (block mainnet s 0).validators = s.queued.map Prod.fst) ∧
    (1800 ≤ s.now + 1 - s.authored c.who → c ∉ (block mainnet s 0).cands) := by
  have n := noted_quiet s 0
  rw [block_turn mainnet s 0 ht]
  have hfold : kickStale mainnet (noted s 0) = kickOne mainnet (noted s 0) c.who := by
    unfold kickStale; rw [n.cands, hc]; rfl
  have hin : c.who ∉ (noted s 0).invulnerables := by rw [n.invulnerables, hi]; simpa using h1
  have hel : eligible (noted s 0) = 2 := by unfold eligible; rw [n.cands, n.invulnerables, hc, hi]; rfl
  constructor
  · intro hlt
    have hks : kickStale mainnet (noted s 0) = noted s 0 := by
      rw [hfold]; unfold kickOne
      rw [if_neg hin, if_pos]
      right
      rw [n.now, n.authored _ hv]; exact hlt
    have hr : rotate mainnet (noted s 0) = { noted s 0 with
        validators := (noted s 0).queued.map Prod.fst
        queued := (assemble (noted s 0)).filterMap (fun a => ((noted s 0).keys a).map (fun k => (a, k)))
        authorities := if (noted s 0).queued = [] then (noted s 0).authorities else (noted s 0).queued.map Prod.snd } := by
      unfold rotate; rw [hks]
    rw [hr]
    refine ⟨n.cands.trans hc, n.authored _ hv, n.invulnerables.trans hi, n.desired.trans hd, ?_, n.now, ?_⟩
    · show (noted s 0).keys 1 = _
      rw [n.keys]; exact hk
    · show (noted s 0).queued.map Prod.fst = _
      rw [n.queued]
  · intro hge hin'
    have hks : kickStale mainnet (noted s 0) = removeCand (noted s 0) c.who true := by
      rw [hfold]; unfold kickOne
      rw [if_neg hin, if_neg]
      rw [hel, n.now, n.authored _ hv]
      simp only [mainnet, kick]
      omega
    have hx : c ∈ (kickStale mainnet (noted s 0)).cands := hin'
    rw [hks] at hx
    unfold removeCand at hx
    rw [n.cands, hc] at hx
    simp [unreserve, n.cands, hc] at hx

/-- Account 2 puts up the bond at genesis, where no candidates are wanted. After twelve hours it is removed for having made no
block, although it has never been among the makers. -/
theorem C164_chance_false : ¬ C164_chance := by
  intro h
  obtain ⟨k, hk⟩ : ∃ k, k = 1799 := ⟨_, rfl⟩
  have h := h mainnet (.inl rfl) [(1, 10)] 100 0 (fun _ => 5 * 10 ^ 6) start_one
    ((([.call (.signed 2) (.setKeys 20), .call (.signed 2) .register] ++ List.replicate k (.block 0)) ++ [.block 0]) ++
      List.replicate k (.block 0)) 0 ⟨2, 100⟩
  rw [run_run, run_run, run_run] at h
  obtain ⟨s1, e1⟩ : ∃ s1, s1 = run mainnet (genesis [(1, 10)] 100 0 (fun _ => 5 * 10 ^ 6))
    [.call (.signed 2) (.setKeys 20), .call (.signed 2) .register] := ⟨_, rfl⟩
  have f1 : s1.now = 0 ∧ s1.cands = [⟨2, 100⟩] ∧ s1.validators = [1] ∧ s1.authored 2 = 1800 ∧ s1.invulnerables = [1] ∧
      s1.desired = 0 ∧ s1.keys 1 = some 10 ∧ s1.queued = [(1, 10)] := by rw [e1]; decide +kernel
  rw [← e1] at h
  clear e1
  obtain ⟨n1, c1, v1, a1, i1, d1, k1, u1⟩ := f1
  have q1 := quiet mainnet k s1 (by rw [n1]; omega)
  generalize run mainnet s1 (List.replicate k (.block 0)) = s2 at q1 h
  have c2 : s2.cands = [⟨2, 100⟩] := q1.cands.trans c1
  have v2 : s2.validators = [1] := q1.validators.trans v1
  have a2 : s2.authored 2 = 1800 := (q1.authored 2 (by rw [v1]; decide)).trans a1
  have n2 : s2.now = 1799 := by rw [q1.now, n1, hk]
  obtain ⟨c3, a3, i3, d3, k3, n3, v3⟩ := (turn_one (s := s2) (c := ⟨2, 100⟩) c2 (q1.invulnerables.trans i1)
    (by decide) (q1.desired.trans d1) (by rw [q1.keys]; exact k1) (by rw [n2])
    (by rw [v2]; decide)).1 (by rw [n2, show s2.authored (⟨2, 100⟩ : Cand).who = 1800 from a2]; decide)
  rw [show run mainnet s2 [.block 0] = block mainnet s2 0 from rfl] at h
  rw [n2] at n3
  have v3 : (block mainnet s2 0).validators = [1] := by rw [v3, q1.queued, u1]; rfl
  have a3 : (block mainnet s2 0).authored 2 = 1800 := a3.trans a2
  generalize block mainnet s2 0 = s3 at *
  have q3 := quiet mainnet k s3 (by rw [n3]; omega)
  generalize run mainnet s3 (List.replicate k (.block 0)) = s4 at q3 h
  have c4 : s4.cands = [⟨2, 100⟩] := q3.cands.trans c3
  have v4 : s4.validators = [1] := q3.validators.trans v3
  have n4 : s4.now = 3599 := by rw [q3.now, n3, hk]
  have i4 : s4.invulnerables = [1] := q3.invulnerables.trans i3
  have a4 : s4.authored 2 = 1800 := (q3.authored 2 (by rw [v3]; decide)).trans a3
  have gone := (turn_one (s := s4) (c := ⟨2, 100⟩) c4 i4 (by decide) (q3.desired.trans d3) (by rw [q3.keys]; exact k3)
    (by rw [n4]) (by rw [v4]; decide)).2 (by rw [n4, show s4.authored (⟨2, 100⟩ : Cand).who = 1800 from a4])
  have := h (by rw [c4]; simp) (by rw [i4]; decide) gone
  rw [v4] at this
  exact absurd this (by decide)

theorem C164_full_false : ¬ C164_full := fun h => C164_once_false h.1

/-- The hypotheses can be met: before a turn there is a candidate, and root and council have been careful. -/
example : ∃ h, (run mainnet (genesis [(1, 10)] 100 1 (fun _ => 5 * 10 ^ 6)) h).cands = [⟨2, 100⟩] ∧
    ((run mainnet (genesis [(1, 10)] 100 1 (fun _ => 5 * 10 ^ 6)) h).now + 1) % 1800 = 0 ∧ Distinct h := by
  obtain ⟨k, hk⟩ : ∃ k, k = 1799 := ⟨_, rfl⟩
  refine ⟨[.call (.signed 2) (.setKeys 20), .call (.signed 2) .register] ++ List.replicate k (.block 0), ?_, ?_, ?_⟩
  pick_goal 3
  · intro new h; simp at h
  all_goals
    rw [run_run]
    have f : (run mainnet (genesis [(1, 10)] 100 1 (fun _ => 5 * 10 ^ 6))
        [.call (.signed 2) (.setKeys 20), .call (.signed 2) .register]).now = 0 ∧
      (run mainnet (genesis [(1, 10)] 100 1 (fun _ => 5 * 10 ^ 6))
        [.call (.signed 2) (.setKeys 20), .call (.signed 2) .register]).cands = [⟨2, 100⟩] := by decide +kernel
    have q := quiet mainnet k (run mainnet (genesis [(1, 10)] 100 1 (fun _ => 5 * 10 ^ 6))
        [.call (.signed 2) (.setKeys 20), .call (.signed 2) .register]) (by rw [f.1]; omega)
  · exact q.cands.trans f.2
  · rw [q.now, f.1, hk]

/-- Root and council have been careful, and there is a candidate. -/
example : ∃ h, (run mainnet (genesis [(1, 10)] 100 1 (fun _ => 5 * 10 ^ 6)) h).cands = [⟨2, 100⟩] ∧
    Careful mainnet (genesis [(1, 10)] 100 1 (fun _ => 5 * 10 ^ 6)) h :=
  ⟨[.call (.signed 2) (.setKeys 20), .call (.signed 2) .register], by decide +kernel,
    ⟨fun _ h => (by cases h), fun _ h => (by cases h), fun _ h => (by cases h), fun _ h => (by cases h), trivial⟩⟩

/-- Root names account 2, which is then chosen with its key; a candidate is outbid; the bond rises above another's. -/
example :
    let s0 := genesis [(1, 10)] 100 1 (fun _ => 5 * 10 ^ 6)
    let s1 := run mainnet s0 [.call (.signed 2) (.setKeys 20), .call (.signed 3) (.setKeys 30), .call (.signed 4) (.setKeys 40),
      .call .update (.addInvulnerable 2), .call (.signed 3) .register, .call (.signed 4) .register, .call (.signed 4) (.updateBond 130)]
    let s2 := run mainnet s1 [.call .update (.setBond 120)]
    s1.invulnerables = [1, 2] ∧ s1.cands = [⟨3, 100⟩, ⟨4, 130⟩] ∧ assemble s1 = [1, 2, 4] ∧ s2.cands = [⟨4, 130⟩] ∧
    (run mainnet s2 [.block 0, .block 1]).made = [(2, 1), (1, 1)] := by decide +kernel

end Verif.Collators
