import Verif.Chain.Model
import Verif.Msa.PropsDelegation
import Verif.Schemas.Props
import Verif.Messages.Props
import Verif.Handles.Props
import Verif.Stateful.Props
import Verif.Capacity.Props
/-!
# Each pallet within the chain

What a step of the chain does to each pallet is what a step of the model of that pallet does, with the
environment computed from the chain; so every history of the chain is a history of each pallet.
-/

namespace Verif.Chain

/-- Origin and call of a step that dispatches a call. -/
def Step.sends : Step → Option (Origin × Call)
  | .call _ o c => some (o, c)
  | .submit _ who c => some (.signed who, c)
  | _ => none

/-- Everything a step can do. -/
inductive Eff (cfg : Config) (s : State) : Step → State → Prop
  | same (x) : Eff cfg s x s
  | newBlock : Eff cfg s .newBlock (newBlock cfg s)
  | call {bal o c s'} (h : dispatch cfg bal s o c = some s') : Eff cfg s (.call bal o c) s'
  | submit {bal who c s'} (he : extensions cfg s who c = true) (h : dispatch cfg bal s (.signed who) c = some s') :
      Eff cfg s (.submit bal who c) s'
  | charge {key fee s'} (h : charge s key fee = some s') : Eff cfg s (.charge key fee) s'
  | upgrade (known) : Eff cfg s (.upgrade known) { s with schemas := Schemas.migrate s.schemas known }

theorem apply_eff (cfg : Config) (s : State) (x : Step) : Eff cfg s x (apply cfg s x) := by
  cases x with
  | newBlock => exact .newBlock
  | call bal o c =>
    show Eff cfg s _ ((dispatch cfg bal s o c).getD s)
    cases h : dispatch cfg bal s o c with
    | none => exact .same _
    | some s' => exact .call h
  | submit bal who c =>
    show Eff cfg s _ (if extensions cfg s who c then (dispatch cfg bal s (.signed who) c).getD s else s)
    split
    · rename_i he
      cases h : dispatch cfg bal s (.signed who) c with
      | none => exact .same _
      | some s' => exact .submit he h
    · exact .same _
  | charge key fee =>
    show Eff cfg s _ ((charge s key fee).getD s)
    cases h : charge s key fee with
    | none => exact .same _
    | some s' => exact .charge h
  | upgrade known => exact .upgrade known

theorem toOption_eq_some {ε α : Type} {x : Except ε α} {a : α} (h : x.toOption = some a) : x = .ok a := by
  cases x with
  | error e => cases h
  | ok b => cases h; rfl

/-- What a successful call does, pallet by pallet. -/
inductive Called (cfg : Config) (bal : AccountId → Balance) (s : State) (o : Origin) : Call → State → Prop
  | msa {c t} (h : Msa.dispatch cfg.msa (msaEnv cfg s) s.msa o.msa c = .ok t) :
      Called cfg bal s o (.msa c) { s with msa := t }
  | schemas {c o' t} (ho : o.schemas = some o') (h : Schemas.dispatch cfg.schemas s.schemas o' c = .ok t) :
      Called cfg bal s o (.schemas c) { s with schemas := t }
  | messages {c key t} (ho : o = .signed key)
      (h : Messages.dispatch cfg.messages (messagesEnv cfg s) s.messages key c = .ok t) :
      Called cfg bal s o (.messages c) { s with messages := t }
  | handles {c key t} (ho : o = .signed key)
      (h : Handles.dispatch cfg.handles s.handles ⟨handlesEnv cfg s, c.op key⟩ = .ok t) :
      Called cfg bal s o (.handles c) { s with handles := t }
  | storage {c t} (h : Stateful.dispatch cfg.storage (storageEnv cfg s) s.storage o.signer c = .ok t) :
      Called cfg bal s o (.storage c) { s with storage := t }
  | capacity {c op t} (ho : c.op o = some op)
      (h : Capacity.dispatch cfg.capacity s.capacity ⟨capacityEnv bal s, op⟩ = .ok t) :
      Called cfg bal s o (.capacity c) { s with capacity := t }

theorem signer_eq {o : Origin} {key} (h : o.signer = some key) : o = .signed key := by
  cases o <;> cases h
  rfl

theorem dispatch_called {cfg bal s o c s'} (h : dispatch cfg bal s o c = some s') : Called cfg bal s o c s' := by
  cases c with
  | msa c =>
    simp only [dispatch, Option.map_eq_some_iff] at h
    obtain ⟨t, h1, rfl⟩ := h
    exact .msa (toOption_eq_some h1)
  | schemas c =>
    simp only [dispatch, Option.bind_eq_bind, Option.bind_eq_some_iff] at h
    obtain ⟨o', h0, t, h1, h2⟩ := h
    cases h2
    exact .schemas h0 (toOption_eq_some h1)
  | messages c =>
    simp only [dispatch, Option.bind_eq_bind, Option.bind_eq_some_iff] at h
    obtain ⟨key, h0, t, h1, h2⟩ := h
    cases h2
    exact .messages (signer_eq h0) (toOption_eq_some h1)
  | handles c =>
    simp only [dispatch, Option.bind_eq_bind, Option.bind_eq_some_iff] at h
    obtain ⟨key, h0, t, h1, h2⟩ := h
    cases h2
    exact .handles (signer_eq h0) (toOption_eq_some h1)
  | storage c =>
    simp only [dispatch, Option.bind_eq_bind, Option.bind_eq_some_iff] at h
    obtain ⟨t, h1, h2⟩ := h
    cases h2
    exact .storage (toOption_eq_some h1)
  | capacity c =>
    simp only [dispatch, Option.bind_eq_bind, Option.bind_eq_some_iff] at h
    obtain ⟨op, h0, t, h1, h2⟩ := h
    cases h2
    exact .capacity h0 (toOption_eq_some h1)

/-- A step that dispatches a call successfully, or one of the others. -/
theorem apply_cases (cfg : Config) (s : State) (x : Step) :
    apply cfg s x = s ∨ (x = .newBlock ∧ apply cfg s x = newBlock cfg s) ∨
    (∃ bal o c, x.sends = some (o, c) ∧ Called cfg bal s o c (apply cfg s x)) ∨
    (∃ key fee m t, x = .charge key fee ∧ msaOf s key = some m ∧ Capacity.withdrawFee s.capacity m fee = .ok t ∧
      apply cfg s x = { s with capacity := t }) ∨
    (∃ known, x = .upgrade known ∧ apply cfg s x = { s with schemas := Schemas.migrate s.schemas known }) := by
  have he := apply_eff cfg s x
  generalize apply cfg s x = s' at he
  cases he with
  | same => exact .inl rfl
  | newBlock => exact .inr (.inl ⟨rfl, rfl⟩)
  | call h => exact .inr (.inr (.inl ⟨_, _, _, rfl, dispatch_called h⟩))
  | submit he h => exact .inr (.inr (.inl ⟨_, _, _, rfl, dispatch_called h⟩))
  | charge h =>
    simp only [charge, Option.bind_eq_bind, Option.bind_eq_some_iff] at h
    obtain ⟨m, h0, t, h1, h2⟩ := h
    cases h2
    exact .inr (.inr (.inr (.inl ⟨_, _, m, t, rfl, h0, toOption_eq_some h1, rfl⟩)))
  | upgrade known => exact .inr (.inr (.inr (.inr ⟨known, rfl, rfl⟩)))

/-! ## Steps of the single pallets -/

theorem apply_msa (cfg : Config) (s : State) (x : Step) :
    (apply cfg s x).msa = s.msa ∨
    ∃ o c, x.sends = some (o, .msa c) ∧
      (apply cfg s x).msa = Msa.apply cfg.msa s.msa ⟨msaEnv cfg s, o.msa, c⟩ := by
  rcases apply_cases cfg s x with h | ⟨_, h⟩ | ⟨bal, o, c, h1, h⟩ | ⟨_, _, _, _, _, _, _, h⟩ | ⟨_, _, h⟩
  · exact .inl (by rw [h])
  · exact .inl (by rw [h]; rfl)
  · generalize apply cfg s x = s' at h
    cases h with
    | msa h => exact .inr ⟨o, _, h1, by simp [Msa.apply, h]⟩
    | _ => exact .inl rfl
  · exact .inl (by rw [h])
  · exact .inl (by rw [h])

theorem apply_schemas (cfg : Config) (s : State) (x : Step) :
    (apply cfg s x).schemas = s.schemas ∨
    ∃ y, (apply cfg s x).schemas = Schemas.apply cfg.schemas s.schemas y := by
  rcases apply_cases cfg s x with h | ⟨_, h⟩ | ⟨bal, o, c, h1, h⟩ | ⟨_, _, _, _, _, _, _, h⟩ | ⟨known, _, h⟩
  · exact .inl (by rw [h])
  · exact .inl (by rw [h]; rfl)
  · generalize apply cfg s x = s' at h
    cases h with
    | @schemas c o' _ _ h => exact .inr ⟨.call o' c, by simp [Schemas.apply, h]⟩
    | _ => exact .inl rfl
  · exact .inl (by rw [h])
  · exact .inr ⟨.upgrade known, by rw [h]; rfl⟩

theorem apply_messages (cfg : Config) (s : State) (x : Step) :
    (apply cfg s x).messages = s.messages ∨
    (x = .newBlock ∧ (apply cfg s x).messages = Messages.apply cfg.messages s.messages .newBlock) ∨
    ∃ key c, x.sends = some (.signed key, .messages c) ∧
      (apply cfg s x).messages = Messages.apply cfg.messages s.messages (.call (messagesEnv cfg s) key c) := by
  rcases apply_cases cfg s x with h | ⟨h1, h⟩ | ⟨bal, o, c, h1, h⟩ | ⟨_, _, _, _, _, _, _, h⟩ | ⟨_, _, h⟩
  · exact .inl (by rw [h])
  · exact .inr (.inl ⟨h1, by rw [h]; rfl⟩)
  · generalize apply cfg s x = s' at h
    cases h with
    | @messages c key t ho h =>
      subst ho
      exact .inr (.inr ⟨key, c, h1, by simp [Messages.apply, h]⟩)
    | _ => exact .inl rfl
  · exact .inl (by rw [h])
  · exact .inl (by rw [h])

theorem apply_handles (cfg : Config) (s : State) (x : Step) :
    (apply cfg s x).handles = s.handles ∨
    ∃ key c, x.sends = some (.signed key, .handles c) ∧
      (apply cfg s x).handles = Handles.apply cfg.handles s.handles ⟨handlesEnv cfg s, c.op key⟩ := by
  rcases apply_cases cfg s x with h | ⟨h1, h⟩ | ⟨bal, o, c, h1, h⟩ | ⟨_, _, _, _, _, _, _, h⟩ | ⟨_, _, h⟩
  · exact .inl (by rw [h])
  · exact .inl (by rw [h]; rfl)
  · generalize apply cfg s x = s' at h
    cases h with
    | @handles c key t ho h =>
      subst ho
      exact .inr ⟨key, c, h1, by simp [Handles.apply, h]⟩
    | _ => exact .inl rfl
  · exact .inl (by rw [h])
  · exact .inl (by rw [h])

theorem apply_storage (cfg : Config) (s : State) (x : Step) :
    (apply cfg s x).storage = s.storage ∨
    ∃ o c, x.sends = some (o, .storage c) ∧
      (apply cfg s x).storage = Stateful.apply cfg.storage s.storage ⟨storageEnv cfg s, o.signer, c⟩ := by
  rcases apply_cases cfg s x with h | ⟨h1, h⟩ | ⟨bal, o, c, h1, h⟩ | ⟨_, _, _, _, _, _, _, h⟩ | ⟨_, _, h⟩
  · exact .inl (by rw [h])
  · exact .inl (by rw [h]; rfl)
  · generalize apply cfg s x = s' at h
    cases h with
    | storage h => exact .inr ⟨o, _, h1, by simp [Stateful.apply, h]⟩
    | _ => exact .inl rfl
  · exact .inl (by rw [h])
  · exact .inl (by rw [h])

theorem apply_capacity (cfg : Config) (s : State) (x : Step) :
    (apply cfg s x).capacity = s.capacity ∨
    (∃ bal o c op, x.sends = some (o, .capacity c) ∧ c.op o = some op ∧
      (apply cfg s x).capacity = Capacity.apply cfg.capacity s.capacity ⟨capacityEnv bal s, op⟩) ∨
    (∃ key fee m, x = .charge key fee ∧ msaOf s key = some m ∧
      (apply cfg s x).capacity = Capacity.apply cfg.capacity s.capacity ⟨⟨fun _ => 0, fun _ => false⟩, .charge m fee⟩) ∨
    (x = .newBlock ∧ (apply cfg s x).capacity =
      Capacity.apply cfg.capacity s.capacity ⟨⟨fun _ => 0, fun _ => false⟩, .onInitialize (s.block + 1)⟩) := by
  rcases apply_cases cfg s x with h | ⟨h1, h⟩ | ⟨bal, o, c, h1, h⟩ | ⟨key, fee, m, t, h1, h2, h3, h⟩ | ⟨_, _, h⟩
  · exact .inl (by rw [h])
  · exact .inr (.inr (.inr ⟨h1, by rw [h]; rfl⟩))
  · generalize apply cfg s x = s' at h
    cases h with
    | capacity ho h => exact .inr (.inl ⟨bal, o, _, _, h1, ho, by simp [Capacity.apply, h]⟩)
    | _ => exact .inl rfl
  · exact .inr (.inr (.inl ⟨key, fee, m, h1, h2, by rw [h]; simp [Capacity.apply, Capacity.dispatch, h3]⟩))
  · exact .inl (by rw [h])

theorem apply_block (cfg : Config) (s : State) (x : Step) :
    (x ≠ .newBlock ∧ (apply cfg s x).block = s.block) ∨ (x = .newBlock ∧ (apply cfg s x).block = s.block + 1) := by
  by_cases hx : x = .newBlock
  · subst hx; exact .inr ⟨rfl, rfl⟩
  · refine .inl ⟨hx, ?_⟩
    rcases apply_cases cfg s x with h | ⟨h1, h⟩ | ⟨bal, o, c, h1, h⟩ | ⟨_, _, _, _, _, _, _, h⟩ | ⟨_, _, h⟩
    · rw [h]
    · exact absurd h1 hx
    · generalize apply cfg s x = s' at h
      cases h <;> rfl
    · rw [h]
    · rw [h]

/-! ## Histories of the single pallets -/

@[simp] theorem run_nil (cfg : Config) (s : State) : run cfg s [] = s := rfl

theorem run_append (cfg : Config) (s : State) (a b : List Step) : run cfg s (a ++ b) = run cfg (run cfg s a) b := by
  simp [run, List.foldl_append]

theorem run_snoc (cfg : Config) (s : State) (a : List Step) (x : Step) :
    run cfg s (a ++ [x]) = apply cfg (run cfg s a) x := by
  simp [run, List.foldl_append]

theorem run_cons (cfg : Config) (s : State) (a : List Step) (x : Step) :
    run cfg s (x :: a) = run cfg (apply cfg s x) a := rfl

/-- A property preserved by every step holds after every history. -/
theorem run_induction {cfg : Config} {P : State → Prop} (hstep : ∀ s x, P s → P (apply cfg s x)) :
    ∀ (h : List Step) (s : State), P s → P (run cfg s h) := by
  intro h
  induction h with
  | nil => intro s hs; exact hs
  | cons x rest ih => intro s hs; exact ih _ (hstep s x hs)

theorem msa_run (cfg : Config) (h : List Step) : ∀ s : State,
    ∃ l, (run cfg s h).msa = Msa.run cfg.msa s.msa l := by
  induction h with
  | nil => intro s; exact ⟨[], rfl⟩
  | cons x rest ih =>
    intro s
    obtain ⟨l, hl⟩ := ih (apply cfg s x)
    rcases apply_msa cfg s x with e | ⟨o, c, _, e⟩
    · exact ⟨l, by rw [run_cons, hl, e]⟩
    · exact ⟨⟨msaEnv cfg s, o.msa, c⟩ :: l, by rw [run_cons, hl, e]; rfl⟩

theorem schemas_run (cfg : Config) (h : List Step) : ∀ s : State,
    ∃ l, (run cfg s h).schemas = Schemas.run cfg.schemas s.schemas l := by
  induction h with
  | nil => intro s; exact ⟨[], rfl⟩
  | cons x rest ih =>
    intro s
    obtain ⟨l, hl⟩ := ih (apply cfg s x)
    rcases apply_schemas cfg s x with e | ⟨y, e⟩
    · exact ⟨l, by rw [run_cons, hl, e]⟩
    · exact ⟨y :: l, by rw [run_cons, hl, e]; rfl⟩

theorem messages_run (cfg : Config) (h : List Step) : ∀ s : State,
    ∃ l, (run cfg s h).messages = Messages.run cfg.messages s.messages l := by
  induction h with
  | nil => intro s; exact ⟨[], rfl⟩
  | cons x rest ih =>
    intro s
    obtain ⟨l, hl⟩ := ih (apply cfg s x)
    rcases apply_messages cfg s x with e | ⟨_, e⟩ | ⟨key, c, _, e⟩
    · exact ⟨l, by rw [run_cons, hl, e]⟩
    · exact ⟨.newBlock :: l, by rw [run_cons, hl, e]; rfl⟩
    · exact ⟨.call (messagesEnv cfg s) key c :: l, by rw [run_cons, hl, e]; rfl⟩

theorem handles_run (cfg : Config) (h : List Step) : ∀ s : State,
    ∃ l, Handles.Fixed cfg.lo cfg.hi l ∧ (run cfg s h).handles = Handles.run cfg.handles s.handles l := by
  induction h with
  | nil => intro s; exact ⟨[], by simp [Handles.Fixed], rfl⟩
  | cons x rest ih =>
    intro s
    obtain ⟨l, hf, hl⟩ := ih (apply cfg s x)
    rcases apply_handles cfg s x with e | ⟨key, c, _, e⟩
    · exact ⟨l, hf, by rw [run_cons, hl, e]⟩
    · refine ⟨⟨handlesEnv cfg s, c.op key⟩ :: l, ?_, by rw [run_cons, hl, e]; rfl⟩
      intro y hy
      rcases List.mem_cons.1 hy with rfl | hy
      · exact ⟨rfl, rfl⟩
      · exact hf y hy

theorem capacity_run (cfg : Config) (h : List Step) : ∀ s : State,
    ∃ l, (run cfg s h).capacity = Capacity.run cfg.capacity s.capacity l := by
  induction h with
  | nil => intro s; exact ⟨[], rfl⟩
  | cons x rest ih =>
    intro s
    obtain ⟨l, hl⟩ := ih (apply cfg s x)
    rcases apply_capacity cfg s x with e | ⟨_, _, _, op, _, _, e⟩ | ⟨_, _, _, _, _, e⟩ | ⟨_, e⟩
    · exact ⟨l, by rw [run_cons, hl, e]⟩
    all_goals exact ⟨_ :: l, by rw [run_cons, hl, e]; rfl⟩

end Verif.Chain
