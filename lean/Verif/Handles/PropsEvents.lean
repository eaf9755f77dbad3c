import Verif.Handles.Props
import Mathlib.Data.List.Induction
/-!
# What the events of the handles pallet tell

C122: whoever follows `HandleClaimed` and `HandleRetired` knows the handle of every account.
-/

namespace Verif.Handles

/-- The directory of somebody who knows nothing but the events: a claim sets the handle of the account, a retirement
removes it. -/
def directory (l : List Event) : MsaId → Option Bytes :=
  l.foldl (fun dir e a => match e with
    | .claimed m d => if a = m then some d else dir a
    | .retired m _ => if a = m then none else dir a) (fun _ => none)

/-- Events that make sense one after the other: claims for accounts without handle, retirements of the handle the
account has. -/
inductive Sound : List Event → Prop
  | nil : Sound []
  | claimed {l m d} : Sound l → directory l m = none → Sound (l ++ [.claimed m d])
  | retired {l m d} : Sound l → directory l m = some d → Sound (l ++ [.retired m d])

/-- What a step may announce, and about whom: the account `m` of the key that the step is for. -/
def Announces (s : State) (x : Step) (new : List Event) : Prop :=
  match x.op with
  | .claim k _ _ => ∃ m d, x.env.msaOf k = some m ∧ s.byMsa.get m = none ∧ new = [.claimed m d]
  | .change k _ _ => ∃ m d d', x.env.msaOf k = some m ∧ (s.byMsa.get m).map Prod.fst = some d ∧
      new = [.retired m d, .claimed m d']
  | .retire k | .retireWrapped k => ∃ m d, x.env.msaOf k = some m ∧ (s.byMsa.get m).map Prod.fst = some d ∧
      new = [.retired m d]

theorem directory_claimed (l : List Event) (m : MsaId) (d : Bytes) (a : MsaId) :
    directory (l ++ [.claimed m d]) a = if a = m then some d else directory l a := by
  simp [directory]

theorem directory_retired (l : List Event) (m : MsaId) (d : Bytes) (a : MsaId) :
    directory (l ++ [.retired m d]) a = if a = m then none else directory l a := by
  simp [directory]

/-- State and events agree. -/
structure Told (s : State) : Prop where
  dir : ∀ m, directory s.events m = (s.byMsa.get m).map Prod.fst
  sound : Sound s.events

theorem told_claimed {cfg env s m p s' d base i x} (h : Told s) (hc : Claimed cfg env s m p s' d base i x) :
    Told { s' with events := s'.events ++ [.claimed m d] } := by
  have he : s'.events = s.events := by rw [hc.state]
  have hb : s'.byMsa = s.byMsa.insert m (d, p.expiration) := by rw [hc.state]
  refine ⟨fun a => ?_, ?_⟩
  · simp only [directory_claimed, he, hb, SMap.get_insert]
    by_cases ha : m = a
    · subst ha; simp
    · rw [if_neg (Ne.symm ha), if_neg ha]; exact h.dir a
  · simp only [he]
    exact .claimed h.sound (by rw [h.dir, hc.noHandle]; rfl)

theorem told_retired {cfg s m s' d base x e} (h : Told s) (hr : Retired cfg s m s' d base x e) :
    Told { s' with events := s'.events ++ [.retired m d] } := by
  have he : s'.events = s.events := by rw [hr.state]
  have hb : s'.byMsa = s.byMsa.erase m := by rw [hr.state]
  refine ⟨fun a => ?_, ?_⟩
  · simp only [directory_retired, he, hb, SMap.get_erase]
    by_cases ha : m = a
    · subst ha; simp
    · rw [if_neg (Ne.symm ha), if_neg ha]; exact h.dir a
  · simp only [he]
    exact .retired h.sound (by rw [h.dir, hr.stored]; rfl)

theorem told_apply (cfg : Config) (s : State) (x : Step) (h : Told s) : Told (apply cfg s x) := by
  have he := apply_eff cfg s x
  generalize apply cfg s x = t at he
  cases he with
  | fail => exact h
  | claim _ _ _ _ hc => exact told_claimed h hc
  | change _ _ _ _ h1 hc => exact told_claimed (told_retired h h1) hc
  | retire _ hr _ => exact told_retired h hr
  | retireWrapped _ hr => exact told_retired h hr

theorem told_run (cfg : Config) (hist : List Step) : Told (run cfg .init hist) := by
  induction hist using List.reverseRecOn with
  | nil => exact ⟨fun m => rfl, .nil⟩
  | append_singleton h x ih =>
    have : run cfg .init (h ++ [x]) = apply cfg (run cfg .init h) x := by simp [run]
    rw [this]
    exact told_apply cfg _ x ih

/-! ## C122 -/

/-- C122: after every history the events tell the handle of every account, and who has none; whatever happens to the range
of suffixes. -/
theorem C122_directory (cfg : Config) (hist : List Step) (m : MsaId) :
    directory (run cfg .init hist).events m = ((run cfg .init hist).byMsa.get m).map Prod.fst :=
  (told_run cfg hist).dir m

/-- C122: the same in terms of the query: who the node gives a handle for has the one the events tell, taken apart. -/
theorem C122_query (cfg : Config) (hist : List Step) (m : MsaId) :
    handleForMsa cfg (run cfg .init hist) m = (do
      let d ← directory (run cfg .init hist).events m
      let str ← utf8Decode d
      let parts ← splitDisplayName str
      some (utf8Encode parts.1, (canonicalBase cfg parts.1).2, parts.2)) := by
  rw [C122_directory]
  unfold handleForMsa
  cases (run cfg .init hist).byMsa.get m <;> rfl

/-- C122: claims are announced only for accounts that, by the events so far, have no handle, and retirements name the
handle that the account has. -/
theorem C122_sound (cfg : Config) (hist : List Step) : Sound (run cfg .init hist).events := (told_run cfg hist).sound

/-- C122: a call that fails announces nothing and leaves every handle as it was. One that succeeds announces a claim, a
retirement, or for a change both in this order, about the account of the key it is for; the handles of the other accounts
are as before. -/
theorem C122_step (cfg : Config) (s : State) (x : Step) :
    match dispatch cfg s x with
    | .error _ => apply cfg s x = s
    | .ok t => apply cfg s x = t ∧ ∃ new, t.events = s.events ++ new ∧ Announces s x new ∧
        ∀ a, (∀ e ∈ new, match e with | .claimed m _ | .retired m _ => m ≠ a) → t.byMsa.get a = s.byMsa.get a := by
  have he := apply_eff cfg s x
  have ha : apply cfg s x = match dispatch cfg s x with | .ok s' => s' | .error _ => s := rfl
  generalize hd : dispatch cfg s x = r at ha ⊢
  cases r with
  | error e => exact ha
  | ok t =>
    refine ⟨ha, ?_⟩
    have ha : apply cfg s x = t := ha
    rw [ha] at he
    clear ha
    cases he with
    | fail _ e h => rw [h] at hd; cases hd
    | @claim env k sig p m s' d base i y _ hm _ _ hc =>
      refine ⟨[.claimed m d], ?_, ⟨m, d, hm, hc.noHandle, rfl⟩, ?_⟩
      · rw [hc.state]
      · intro a h
        have : m ≠ a := h (.claimed m d) (by simp)
        simp only [hc.state, SMap.get_insert, if_neg this]
    | @change env k sig p m s1 d1 base1 x1 e1 s' d base i y _ hm _ _ h1 hc =>
      refine ⟨[.retired m d1, .claimed m d], ?_, ⟨m, d1, d, hm, by rw [h1.stored]; rfl, rfl⟩, ?_⟩
      · simp only [hc.state, h1.state, List.append_assoc, List.cons_append, List.nil_append]
      · intro a h
        have : m ≠ a := h (.claimed m d) (by simp)
        simp only [hc.state, h1.state, SMap.get_insert, SMap.get_erase, if_neg this]
    | @retire env k m s' d base y e hm hr hexp =>
      refine ⟨[.retired m d], ?_, ⟨m, d, hm, by rw [hr.stored]; rfl, rfl⟩, ?_⟩
      · simp only [hr.state]
      · intro a h
        have : m ≠ a := h (.retired m d) (by simp)
        simp only [hr.state, SMap.get_erase, if_neg this]
    | @retireWrapped env k m s' d base y e hm hr =>
      refine ⟨[.retired m d], ?_, ⟨m, d, hm, by rw [hr.stored]; rfl, rfl⟩, ?_⟩
      · simp only [hr.state]
      · intro a h
        have : m ≠ a := h (.retired m d) (by simp)
        simp only [hr.state, SMap.get_erase, if_neg this]

/-- A history with a claim by two accounts, an early retirement that fails, a retirement, a new claim and a change. -/
def exChanges : List Step := exHist ++ [⟨exEnv 60, .change 2 2 (pl "other" 110)⟩]

example : let s := run exCfg .init exChanges
    s.events = [.claimed 1 (displayOf "Abcdefg".toList 23), .claimed 2 (displayOf "abcdefg".toList 65),
      .retired 1 (displayOf "Abcdefg".toList 23), .claimed 1 (displayOf "abCdEfg".toList 16),
      .retired 2 (displayOf "abcdefg".toList 65), .claimed 2 ((s.byMsa.get 2).map Prod.fst |>.getD [])] ∧
    directory s.events 1 = some (displayOf "abCdEfg".toList 16) ∧ (directory s.events 2).isSome = true ∧
    directory s.events 3 = none := by
  decide +kernel

end Verif.Handles
