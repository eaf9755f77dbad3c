import Verif.Handles.Props
/-!
# C167: who comes first matters only for the suffix of a handle
-/

namespace Verif.Handles

/-! ## Specification -/

/-- The key that a call is about. -/
def signerOf : Op → AccountId
  | .claim k _ _ | .change k _ _ | .retire k | .retireWrapped k => k

/-- Calls about different accounts. -/
def Others (env : Env) (x y : Op) : Prop :=
  ∀ m, env.msaOf (signerOf x) = some m → env.msaOf (signerOf y) ≠ some m

/-- The calls of a block. -/
def inBlock (env : Env) (h : List Op) : List Step := h.map (fun x => ⟨env, x⟩)

/-- All of the calls succeed, one after the other. -/
def AllOk (cfg : Config) : State → List Step → Prop
  | _, [] => True
  | s, x :: h => (∃ s', dispatch cfg s x = .ok s') ∧ AllOk cfg (apply cfg s x) h

/-- The name of an account's handle without its suffix, and until when it is kept. -/
def nameOf (s : State) (m : MsaId) : Option (Option Str × BlockNumber) :=
  (s.byMsa.get m).map (fun h => ((partsOf h.1).map Prod.fst, h.2))

/-! ## What a call does to names and counters -/

/-- Names and counters. -/
structure View where
  name : MsaId → Option (Option Str × BlockNumber)
  index : Bytes → Option (Nat × Nat)

/-- Those of a state. -/
def view (s : State) : View := ⟨nameOf s, s.index.get⟩

/-- A function changed at one place. -/
def put {α β : Type} [DecidableEq α] (f : α → β) (a : α) (b : β) : α → β := fun x => if x = a then b else f x

theorem put_self {α β : Type} [DecidableEq α] (f : α → β) (a : α) (b : β) : put f a b a = b := if_pos rfl

theorem put_ne {α β : Type} [DecidableEq α] (f : α → β) {a x : α} (b : β) (h : x ≠ a) : put f a b x = f x := if_neg h

theorem put_comm {α β : Type} [DecidableEq α] (f : α → β) {a a' : α} (b b' : β) (h : a ≠ a') :
    put (put f a b) a' b' = put (put f a' b') a b := by
  funext x
  unfold put
  by_cases h1 : x = a' <;> by_cases h2 : x = a
  · exact absurd (h2.symm.trans h1) h
  · simp only [if_pos h1, if_neg h2]
  · simp only [if_pos h2, if_neg h1]
  · simp only [if_neg h1, if_neg h2]

theorem put_put {α β : Type} [DecidableEq α] (f : α → β) (a : α) (b b' : β) : put (put f a b) a b' = put f a b' := by
  funext x
  unfold put
  by_cases h : x = a <;> simp [h]

/-- The next place in the sequence of suffixes, given the counter. -/
def nextIdx (lo : Nat) : Option (Nat × Nat) → Option Nat
  | none => some 0
  | some (current, l) => if lo ≠ l then some 0 else if current + 1 ≤ 65535 then some (current + 1) else none

/-- Conditions of a claim that do not depend on the state. -/
def Valid (cfg : Config) (p : Payload) (base : Str) : Prop :=
  p.baseHandle.length ≤ 32 ∧ validateBaseHandle p.baseHandle = .ok base ∧
  validateSupported (canonical cfg base) = .ok () ∧ validateCanonicalLength (canonical cfg base) = .ok ()

/-- The two things calls consist of. -/
inductive Atom
  | retire (m : MsaId) (by_ : Option BlockNumber)
  | claim (m : MsaId) (p : Payload)

/-- The account. -/
def Atom.who : Atom → MsaId
  | .retire m _ | .claim m _ => m

/-- What they do to names and counters. -/
def Atom.Does (cfg : Config) (env : Env) (V V' : View) : Atom → Prop
  | .retire m by_ => ∃ b e, V.name m = some (some b, e) ∧ (∀ n, by_ = some n → e ≤ n) ∧ V' = ⟨put V.name m none, V.index⟩
  | .claim m p => V.name m = none ∧ ∃ base i, Valid cfg p base ∧ nextIdx env.lo (V.index (keyOf (canonical cfg base))) = some i ∧
      i < env.hi + 1 - env.lo ∧
      V' = ⟨put V.name m (some (some base, p.expiration)), put V.index (keyOf (canonical cfg base)) (some (i, env.lo))⟩

/-- One after the other. -/
def Run (cfg : Config) (env : Env) : List Atom → View → View → Prop
  | [], V, V' => V = V'
  | a :: l, V, V' => ∃ W, a.Does cfg env V W ∧ Run cfg env l W V'

theorem Run.append {cfg : Config} {env : Env} (l l' : List Atom) {V V' : View} :
    Run cfg env (l ++ l') V V' ↔ ∃ W, Run cfg env l V W ∧ Run cfg env l' W V' := by
  induction l generalizing V with
  | nil => simp [Run]
  | cons a l ih =>
    simp only [List.cons_append, Run, ih]
    constructor
    · rintro ⟨W, h1, W', h2, h3⟩; exact ⟨W', ⟨W, h1, h2⟩, h3⟩
    · rintro ⟨W', ⟨W, h1, h2⟩, h3⟩; exact ⟨W, h1, W', h2, h3⟩

theorem nextIdx_some {lo i j : Nat} (h : nextIdx lo (some (i, lo)) = some j) : j = i + 1 := by
  simp only [nextIdx, ne_eq, not_true, if_false] at h
  split at h
  · exact (Option.some.inj h).symm
  · cases h

theorem Atom.swap {cfg : Config} {env : Env} {a b : Atom} (hd : a.who ≠ b.who) {V W V' : View} (h1 : a.Does cfg env V W)
    (h2 : b.Does cfg env W V') : ∃ W', b.Does cfg env V W' ∧ a.Does cfg env W' V' := by
  cases a with
  | retire m n =>
    obtain ⟨x, e, g1, g2, rfl⟩ := h1
    cases b with
    | retire m' n' =>
      have hd : m ≠ m' := hd
      obtain ⟨x', e', g1', g2', rfl⟩ := h2
      refine ⟨_, ⟨x', e', ?_, g2', rfl⟩, x, e, ?_, g2, ?_⟩
      · exact (put_ne _ _ (Ne.symm hd)).symm.trans g1'
      · exact (put_ne _ _ hd).trans g1
      · simp only [put_comm V.name none none hd]
    | claim m' p' =>
      have hd : m ≠ m' := hd
      obtain ⟨g0', base', i', g1', g2', g3', rfl⟩ := h2
      refine ⟨_, ⟨?_, base', i', g1', g2', g3', rfl⟩, x, e, ?_, g2, ?_⟩
      · exact (put_ne _ _ (Ne.symm hd)).symm.trans g0'
      · exact (put_ne _ _ hd).trans g1
      · simp only [put_comm V.name none _ hd]
  | claim m p =>
    obtain ⟨g0, base, i, g1, g2, g3, rfl⟩ := h1
    cases b with
    | retire m' n' =>
      have hd : m ≠ m' := hd
      obtain ⟨x', e', g1', g2', rfl⟩ := h2
      refine ⟨_, ⟨x', e', ?_, g2', rfl⟩, ?_, base, i, g1, g2, g3, ?_⟩
      · exact (put_ne _ _ (Ne.symm hd)).symm.trans g1'
      · exact (put_ne _ _ hd).trans g0
      · simp only [put_comm V.name _ none hd]
    | claim m' p' =>
      have hd : m ≠ m' := hd
      obtain ⟨g0', base', i', g1', g2', g3', rfl⟩ := h2
      by_cases hk : keyOf (canonical cfg base) = keyOf (canonical cfg base')
      · simp only [← hk, put_self] at g2'
        have hj := nextIdx_some g2'
        refine ⟨_, ⟨?_, base', i, g1', hk ▸ g2, g3, rfl⟩, ?_, base, i', g1, ?_, g3', ?_⟩
        · exact (put_ne _ _ (Ne.symm hd)).symm.trans g0'
        · exact (put_ne _ _ hd).trans g0
        · simp only [← hk, put_self]; exact g2'
        · simp only [put_comm V.name _ _ hd, ← hk, put_put]
      · simp only [put_ne _ _ (Ne.symm hk)] at g2'
        refine ⟨_, ⟨?_, base', i', g1', g2', g3', rfl⟩, ?_, base, i, g1, ?_, g3, ?_⟩
        · exact (put_ne _ _ (Ne.symm hd)).symm.trans g0'
        · exact (put_ne _ _ hd).trans g0
        · simp only [put_ne _ _ hk]; exact g2
        · simp only [put_comm V.name _ _ hd, put_comm V.index _ _ hk]

theorem Run.move {cfg : Config} {env : Env} {a : Atom} (l : List Atom) (hd : ∀ b ∈ l, a.who ≠ b.who) {V V' : View}
    (h : Run cfg env (a :: l) V V') : Run cfg env (l ++ [a]) V V' := by
  induction l generalizing V with
  | nil => exact h
  | cons b l ih =>
    obtain ⟨W, h1, W', h2, h3⟩ := h
    obtain ⟨X, g1, g2⟩ := Atom.swap (hd b (by simp)) h1 h2
    exact ⟨X, g1, ih (fun c hc => hd c (by simp [hc])) ⟨W', g2, h3⟩⟩

theorem Run.swap {cfg : Config} {env : Env} (l l' : List Atom) (hd : ∀ a ∈ l, ∀ b ∈ l', a.who ≠ b.who) {V V' : View}
    (h : Run cfg env (l ++ l') V V') : Run cfg env (l' ++ l) V V' := by
  induction l generalizing l' V with
  | nil => simpa using h
  | cons a l ih =>
    obtain ⟨W, h1, h2⟩ := h
    have h3 := ih l' (fun x hx => hd x (by simp [hx])) h2
    have h4 : Run cfg env ((a :: l') ++ l) V V' := ⟨W, h1, h3⟩
    obtain ⟨X, h5, h6⟩ := (Run.append _ _).1 h4
    have h7 := Run.move l' (hd a (by simp)) h5
    have h8 : Run cfg env ((l' ++ [a]) ++ l) V V' := (Run.append _ _).2 ⟨X, h7, h6⟩
    simpa using h8

/-! ## Calls as these two things -/

theorem nextSuffixIndex_iff (env : Env) (s : State) (k : Bytes) (i : Nat) :
    nextSuffixIndex env s k = .ok i ↔ nextIdx env.lo (s.index.get k) = some i := by
  unfold nextSuffixIndex nextIdx
  cases s.index.get k with
  | none => simp
  | some c => dsimp only; split_ifs <;> simp

theorem generateSuffix_iff (env : Env) (c : Str) (i : Nat) :
    (∃ x, generateSuffix env c i = .ok x) ↔ i < env.hi + 1 - env.lo := by
  simp only [generateSuffix, okOr_eq_ok_iff]
  rw [← length_uniqueSuffixes env.lo env.hi c]
  constructor
  · rintro ⟨x, h⟩; exact (List.getElem?_eq_some_iff.1 h).1
  · intro h; exact ⟨_, List.getElem?_eq_getElem h⟩

theorem doClaim_view {cfg : Config} {env : Env} {s s' : State} {m : MsaId} {p : Payload} {d : Bytes} (hr : RangeOk env.hi)
    (hl : p.baseHandle.length ≤ 32) (h : doClaim cfg env s m p = .ok (s', d)) :
    (Atom.claim m p).Does cfg env (view s) (view s') := by
  obtain ⟨base, i, x, hc⟩ := doClaim_ok h
  simp only [doClaim, bind_eq_ok_iff, canonicalBase_eq] at h
  obtain ⟨_, _, base', hb, _, h2, _, h3, -⟩ := h
  have e : base' = base := by
    simp only [validateBaseHandle, bind_eq_ok_iff, okOr_eq_ok_iff, pure_eq_ok_iff] at hb
    obtain ⟨b, hb, _, _, _, _, _, _, rfl⟩ := hb
    exact Option.some.inj (hb.symm.trans hc.decoded)
  subst e
  have hx : x ≤ 65535 := by
    have := (mem_uniqueSuffixes env.lo env.hi _ x).1 (List.mem_of_getElem? hc.suffix)
    unfold RangeOk at hr
    omega
  have hdot : '.' ∉ base' := fun hm => hc.blocked _ hm (by decide)
  refine ⟨by simp [view, nameOf, hc.noHandle], base', i, ⟨hl, hb, h2, h3⟩, (nextSuffixIndex_iff ..).1 hc.nextIndex,
    (generateSuffix_iff ..).1 ⟨x, okOr_eq_ok_iff.2 hc.suffix⟩, ?_⟩
  rw [hc.state]
  simp only [view, View.mk.injEq]
  constructor
  · funext m'
    by_cases hm : m' = m
    · subst hm
      simp [nameOf, put_self, hc.display, partsOf_displayOf hdot hx]
    · rw [put_ne _ _ hm]
      simp [nameOf, SMap.get_insert_ne, Ne.symm hm]
  · funext k
    by_cases hk : k = keyOf (canonical cfg base')
    · subst hk
      simp [put_self]
    · rw [put_ne _ _ hk]
      simp [SMap.get_insert_ne, Ne.symm hk]

theorem doClaim_can {cfg : Config} {env : Env} {s : State} {m : MsaId} {p : Payload} (hr : RangeOk env.hi) {V : View}
    (h : (Atom.claim m p).Does cfg env (view s) V) : ∃ s' d, doClaim cfg env s m p = .ok (s', d) := by
  obtain ⟨h0, base, i, ⟨hl, hb, h2, h3⟩, h4, h5, -⟩ := h
  obtain ⟨x, hx⟩ := (generateSuffix_iff env (canonical cfg base) i).2 h5
  have hn : s.byMsa.get m = none := by
    cases hg : s.byMsa.get m with
    | none => rfl
    | some v => simp [view, nameOf, hg] at h0
  have hlen : (utf8Encode base ++ utf8Encode ['.'] ++ utf8Encode (Nat.toDigits 10 x)).length ≤ displayMax := by
    have e : utf8Encode base = p.baseHandle := by
      simp only [validateBaseHandle, bind_eq_ok_iff, okOr_eq_ok_iff, pure_eq_ok_iff] at hb
      obtain ⟨b, hb, _, _, _, _, _, _, rfl⟩ := hb
      exact utf8Encode_decode hb
    have hx' : x ≤ 65535 := by
      have := (mem_uniqueSuffixes env.lo env.hi _ x).1 (List.mem_of_getElem? (okOr_eq_ok_iff.1 hx))
      unfold RangeOk at hr
      omega
    have h6 := length_dec 4 x (by omega)
    have h7 := utf8_digits (dec x) (fun c hc => dec_digit hc)
    have h8 : (utf8Encode ['.']).length = 1 := by decide
    unfold dec at h6 h7
    simp only [List.length_append, e, h7, h8, displayMax, bytesMax]
    omega
  have e4 := (nextSuffixIndex_iff env s _ i).2 h4
  have key : ∃ r, doClaim cfg env s m p = .ok r := by
    simp only [doClaim, buildDisplay, bind_eq_ok_iff, pure_eq_ok_iff, canonicalBase_eq]
    exact ⟨_, (), ensure_eq_ok_iff.2 hn, base, hb, (), h2, (), h3, i, e4, x, hx, _, ⟨(), ensure_eq_ok_iff.2 hlen, rfl⟩, rfl⟩
  obtain ⟨⟨s', d⟩, h⟩ := key
  exact ⟨s', d, h⟩

theorem doRetire_view {cfg : Config} {env : Env} {s s' : State} {m : MsaId} {d : Bytes} {n : Option BlockNumber}
    (h : doRetire cfg s m = .ok (s', d)) (hn : ∀ v k, s.byMsa.get m = some v → n = some k → v.2 ≤ k) :
    (Atom.retire m n).Does cfg env (view s) (view s') := by
  obtain ⟨base, x, e, h⟩ := doRetire_ok h
  refine ⟨base, e, by simp [view, nameOf, h.stored, h.parts], fun k hk => hn _ k h.stored hk, ?_⟩
  rw [h.state]
  simp only [view, View.mk.injEq, and_true]
  funext m'
  by_cases hm : m' = m
  · subst hm
    simp [nameOf, put_self]
  · rw [put_ne _ _ hm]
    simp [nameOf, SMap.get_erase_ne, Ne.symm hm]

theorem doRetire_can {cfg : Config} {env : Env} {s : State} {m : MsaId} {n : Option BlockNumber} {V : View}
    (h : (Atom.retire m n).Does cfg env (view s) V) :
    ∃ v s' d, s.byMsa.get m = some v ∧ (∀ k, n = some k → v.2 ≤ k) ∧ doRetire cfg s m = .ok (s', d) := by
  obtain ⟨b, e, h1, h2, -⟩ := h
  simp only [view, nameOf, Option.map_eq_some_iff] at h1
  obtain ⟨v, h1, h3⟩ := h1
  rw [Prod.mk.injEq, Option.map_eq_some_iff] at h3
  obtain ⟨⟨⟨b', x⟩, h4, -⟩, rfl⟩ := h3
  simp only [partsOf, Option.bind_eq_some_iff] at h4
  obtain ⟨str, h5, h6⟩ := h4
  have key : ∃ r, doRetire cfg s m = .ok r := by
    simp only [doRetire, bind_eq_ok_iff, okOr_eq_ok_iff, pure_eq_ok_iff]
    exact ⟨_, v, h1, str, h5, _, h6, rfl⟩
  obtain ⟨⟨s', d⟩, h⟩ := key
  exact ⟨v, s', d, h1, h2, h⟩

/-- What a call consists of. -/
def atoms (env : Env) (x : Op) : List Atom :=
  match env.msaOf (signerOf x), x with
  | some m, .claim _ _ p => [.claim m p]
  | some m, .change _ _ p => [.retire m none, .claim m p]
  | some m, .retire _ => [.retire m (some env.block)]
  | some m, .retireWrapped _ => [.retire m none]
  | none, _ => []

/-- Conditions of a call that do not depend on the state. -/
def Ready (cfg : Config) (env : Env) (x : Op) : Prop :=
  (∃ m, env.msaOf (signerOf x) = some m) ∧
  match x with
  | .claim k sig p | .change k sig p =>
    p.baseHandle.length ≤ 32 ∧ verifyMortality cfg env p.expiration = .ok () ∧ verifySigned cfg sig k p.encode = .ok ()
  | _ => True

theorem dispatch_view {cfg : Config} {env : Env} (hr : RangeOk env.hi) {s s' : State} {x : Op}
    (h : dispatch cfg s ⟨env, x⟩ = .ok s') : Ready cfg env x ∧ Run cfg env (atoms env x) (view s) (view s') := by
  cases x with
  | claim k sig p =>
    simp only [dispatch, claim, verifyByteLength, bind_eq_ok_iff, okOr_eq_ok_iff, pure_eq_ok_iff] at h
    obtain ⟨_, h1, m, h2, _, h3, _, h4, ⟨s1, d⟩, h5, rfl⟩ := h
    have hl := ensure_eq_ok_iff.1 h1
    refine ⟨⟨⟨m, h2⟩, hl, h3, h4⟩, ?_⟩
    simp only [atoms, signerOf, h2]
    exact ⟨_, doClaim_view hr hl h5, rfl⟩
  | change k sig p =>
    simp only [dispatch, change, verifyByteLength, bind_eq_ok_iff, okOr_eq_ok_iff, pure_eq_ok_iff] at h
    obtain ⟨_, h1, m, h2, _, h3, _, h4, _, _, ⟨s1, d⟩, h5, ⟨s2, d2⟩, h6, rfl⟩ := h
    have hl := ensure_eq_ok_iff.1 h1
    refine ⟨⟨⟨m, h2⟩, hl, h3, h4⟩, ?_⟩
    simp only [atoms, signerOf, h2]
    have h7 := doClaim_view hr hl h6
    exact ⟨view s1, doRetire_view h5 (fun _ _ _ hk => by cases hk), view s2, h7, rfl⟩
  | retire k =>
    simp only [dispatch, validateRetire, retire, bind_eq_ok_iff, okOr_eq_ok_iff, pure_eq_ok_iff] at h
    obtain ⟨_, ⟨m, h1, v, h2, h3⟩, m', h4, ⟨s1, d⟩, h5, rfl⟩ := h
    obtain rfl : m = m' := Option.some.inj (h1.symm.trans h4)
    refine ⟨⟨⟨m, h1⟩, trivial⟩, ?_⟩
    simp only [atoms, signerOf, h1]
    refine ⟨_, doRetire_view h5 (fun w n hw hk => ?_), rfl⟩
    obtain rfl := Option.some.inj hk
    rw [h2] at hw
    obtain rfl := Option.some.inj hw
    exact ensure_eq_ok_iff.1 h3
  | retireWrapped k =>
    simp only [dispatch, retire, bind_eq_ok_iff, okOr_eq_ok_iff, pure_eq_ok_iff] at h
    obtain ⟨m, h1, ⟨s1, d⟩, h5, rfl⟩ := h
    refine ⟨⟨⟨m, h1⟩, trivial⟩, ?_⟩
    simp only [atoms, signerOf, h1]
    exact ⟨_, doRetire_view h5 (fun _ _ _ hk => by cases hk), rfl⟩

theorem dispatch_can {cfg : Config} {env : Env} (hr : RangeOk env.hi) {s : State} {x : Op} (hx : Ready cfg env x) {V : View}
    (h : Run cfg env (atoms env x) (view s) V) : ∃ s', dispatch cfg s ⟨env, x⟩ = .ok s' := by
  obtain ⟨⟨m, hm⟩, hx⟩ := hx
  cases x with
  | claim k sig p =>
    obtain ⟨hl, h3, h4⟩ := hx
    simp only [signerOf] at hm
    simp only [atoms, signerOf, hm] at h
    obtain ⟨W, h, -⟩ := h
    obtain ⟨s', d, h⟩ := doClaim_can hr h
    simp only [dispatch, claim, bind_eq_ok_iff, okOr_eq_ok_iff, pure_eq_ok_iff]
    exact ⟨_, (), ensure_eq_ok_iff.2 hl, m, hm, (), h3, (), h4, _, h, rfl⟩
  | change k sig p =>
    obtain ⟨hl, h3, h4⟩ := hx
    simp only [signerOf] at hm
    simp only [atoms, signerOf, hm] at h
    obtain ⟨W, h1, W', h2, -⟩ := h
    obtain ⟨v, s1, d, hv, -, g1⟩ := doRetire_can h1
    have e : W = view { s1 with events := s1.events ++ [.retired m d] } := by
      obtain ⟨_, _, _, _, e1⟩ := h1
      obtain ⟨_, _, _, _, e2⟩ := doRetire_view (env := env) (n := none) g1 (fun _ _ _ hk => by cases hk)
      exact e1.trans e2.symm
    subst e
    obtain ⟨s', d', g2⟩ := doClaim_can hr h2
    simp only [dispatch, change, bind_eq_ok_iff, okOr_eq_ok_iff, pure_eq_ok_iff]
    exact ⟨_, (), ensure_eq_ok_iff.2 hl, m, hm, (), h3, (), h4, v, hv, _, g1, _, g2, rfl⟩
  | retire k =>
    simp only [signerOf] at hm
    simp only [atoms, signerOf, hm] at h
    obtain ⟨W, h1, -⟩ := h
    obtain ⟨v, s1, d, hv, hn, g1⟩ := doRetire_can h1
    simp only [dispatch, validateRetire, retire, bind_eq_ok_iff, okOr_eq_ok_iff, pure_eq_ok_iff]
    exact ⟨_, (), ⟨m, hm, v, hv, ensure_eq_ok_iff.2 (hn _ rfl)⟩, m, hm, _, g1, rfl⟩
  | retireWrapped k =>
    simp only [signerOf] at hm
    simp only [atoms, signerOf, hm] at h
    obtain ⟨W, h1, -⟩ := h
    obtain ⟨v, s1, d, hv, hn, g1⟩ := doRetire_can h1
    simp only [dispatch, retire, bind_eq_ok_iff, okOr_eq_ok_iff, pure_eq_ok_iff]
    exact ⟨_, m, hm, _, g1, rfl⟩

theorem Atom.det {cfg : Config} {env : Env} {a : Atom} {V W W' : View} (h : a.Does cfg env V W) (h' : a.Does cfg env V W') :
    W = W' := by
  cases a with
  | retire m n =>
    obtain ⟨_, _, _, _, rfl⟩ := h
    obtain ⟨_, _, _, _, rfl⟩ := h'
    rfl
  | claim m p =>
    obtain ⟨_, b, i, g1, g2, _, rfl⟩ := h
    obtain ⟨_, b', i', g1', g2', _, rfl⟩ := h'
    obtain rfl : b = b' := Except.ok.inj (g1.2.1.symm.trans g1'.2.1)
    obtain rfl : i = i' := Option.some.inj (g2.symm.trans g2')
    rfl

theorem Run.det {cfg : Config} {env : Env} (l : List Atom) {V W W' : View} (h : Run cfg env l V W) (h' : Run cfg env l V W') :
    W = W' := by
  induction l generalizing V with
  | nil => exact h.symm.trans h'
  | cons a l ih =>
    obtain ⟨X, h1, h2⟩ := h
    obtain ⟨X', h1', h2'⟩ := h'
    obtain rfl := Atom.det h1 h1'
    exact ih h2 h2'

theorem atoms_who {env : Env} {x : Op} {a : Atom} (h : a ∈ atoms env x) : env.msaOf (signerOf x) = some a.who := by
  unfold atoms at h
  cases hm : env.msaOf (signerOf x) with
  | none => rw [hm] at h; cases x <;> simp at h
  | some m =>
    rw [hm] at h
    cases x <;> simp only [List.mem_cons, List.not_mem_nil, or_false] at h
    all_goals first
      | (subst h; rfl)
      | (rcases h with rfl | rfl <;> rfl)

theorem allOk_iff {cfg : Config} {env : Env} (hr : RangeOk env.hi) (h : List Op) {s : State} :
    AllOk cfg s (inBlock env h) ↔ (∀ x ∈ h, Ready cfg env x) ∧ ∃ V, Run cfg env (h.flatMap (atoms env)) (view s) V := by
  induction h generalizing s with
  | nil => simp [AllOk, inBlock, Run]
  | cons x h ih =>
    simp only [List.flatMap_cons, Run.append, List.mem_cons, forall_eq_or_imp]
    constructor
    · rintro ⟨⟨s', hs⟩, ht⟩
      have e : apply cfg s ⟨env, x⟩ = s' := by simp [apply, hs]
      rw [e] at ht
      obtain ⟨h1, V, h2⟩ := ih.1 ht
      obtain ⟨g1, g2⟩ := dispatch_view hr hs
      exact ⟨⟨g1, h1⟩, V, _, g2, h2⟩
    · rintro ⟨⟨g1, h1⟩, V, W, h2, h3⟩
      obtain ⟨s', hs⟩ := dispatch_can hr g1 h2
      have e : apply cfg s ⟨env, x⟩ = s' := by simp [apply, hs]
      obtain rfl := Run.det _ h2 (dispatch_view hr hs).2
      exact ⟨⟨s', hs⟩, by rw [e]; exact ih.2 ⟨h1, V, h3⟩⟩

theorem run_view {cfg : Config} {env : Env} (hr : RangeOk env.hi) (h : List Op) {s : State}
    (ha : AllOk cfg s (inBlock env h)) : Run cfg env (h.flatMap (atoms env)) (view s) (view (run cfg s (inBlock env h))) := by
  induction h generalizing s with
  | nil => rfl
  | cons x h ih =>
    obtain ⟨⟨s', hs⟩, ht⟩ := ha
    have e : apply cfg s ⟨env, x⟩ = s' := by simp [apply, hs]
    rw [e] at ht
    rw [List.flatMap_cons, Run.append]
    refine ⟨_, (dispatch_view hr hs).2, ?_⟩
    have := ih ht
    show Run cfg env _ _ (view (run cfg (apply cfg s ⟨env, x⟩) (inBlock env h)))
    rw [e]; exact this

theorem Others.symm {env : Env} {x y : Op} (h : Others env x y) : Others env y x := fun m h1 h2 => h m h2 h1

theorem run_perm {cfg : Config} {env : Env} {h h' : List Op} (hp : h.Perm h') (hd : h.Pairwise (Others env)) {V W : View}
    (hv : Run cfg env (h.flatMap (atoms env)) V W) : Run cfg env (h'.flatMap (atoms env)) V W := by
  induction hp generalizing V with
  | nil => exact hv
  | cons x hp ih =>
    rw [List.flatMap_cons, Run.append] at hv ⊢
    obtain ⟨X, h1, h2⟩ := hv
    exact ⟨X, h1, ih (List.pairwise_cons.1 hd).2 h2⟩
  | swap x y l =>
    rw [List.flatMap_cons, List.flatMap_cons, ← List.append_assoc, Run.append] at hv ⊢
    obtain ⟨X, h1, h2⟩ := hv
    refine ⟨X, Run.swap _ _ ?_ h1, h2⟩
    intro a ha b hb e
    have hyx : Others env y x := (List.pairwise_cons.1 hd).1 x (by simp)
    exact hyx a.who (atoms_who ha) (e ▸ atoms_who hb)
  | trans h1 h2 ih1 ih2 => exact ih2 ((h1.pairwise_iff (fun h => h.symm)).1 hd) (ih1 hd hv)

/-! ## The property -/

/-- C167, outcomes: if claims, changes and retirements of different accounts within a block all succeed, in whatever state the
chain is, then they do in every order. -/
theorem C167_all (cfg : Config) (env : Env) (hr : RangeOk env.hi) (s : State) (h h' : List Op) (hp : h.Perm h')
    (hd : h.Pairwise (Others env)) (ha : AllOk cfg s (inBlock env h)) : AllOk cfg s (inBlock env h') := by
  obtain ⟨h1, V, h2⟩ := (allOk_iff hr h).1 ha
  exact (allOk_iff hr h').2 ⟨fun x hx => h1 x (hp.mem_iff.2 hx), V, run_perm hp hd h2⟩

/-- C167, names: every account then has a handle of the same name, kept until the same block, or none in both. -/
theorem C167_names (cfg : Config) (env : Env) (hr : RangeOk env.hi) (s : State) (h h' : List Op) (hp : h.Perm h')
    (hd : h.Pairwise (Others env)) (ha : AllOk cfg s (inBlock env h)) (m : MsaId) :
    nameOf (run cfg s (inBlock env h)) m = nameOf (run cfg s (inBlock env h')) m := by
  have h1 := run_perm hp hd (run_view hr h ha)
  have h2 := run_view hr h' (C167_all cfg env hr s h h' hp hd ha)
  exact congrFun (congrArg View.name (Run.det _ h1 h2)) m

/-- C167, suffixes, partial: and for every name, the same suffixes have been given out, in the same order; those who asked for the
same name may have got each other's. What is missing: names whose canonical form is longer than 32 bytes. -/
theorem C167_suffixes_partial (cfg : Config) (env : Env) (hr : RangeOk env.hi) (hist : List Step) (hf : Fixed env.lo env.hi hist)
    (h h' : List Op) (hp : h.Perm h') (hd : h.Pairwise (Others env))
    (ha : AllOk cfg (run cfg .init hist) (inBlock env h)) (c : Str) (hc : c ≠ []) (hl : (utf8Encode c).length ≤ 32) :
    assignedTo cfg (run cfg (run cfg .init hist) (inBlock env h)) c =
    assignedTo cfg (run cfg (run cfg .init hist) (inBlock env h')) c := by
  have hi := inv_run hr hist (inv_init cfg env.lo env.hi) hf
  have fx : ∀ g : List Op, Fixed env.lo env.hi (inBlock env g) := by
    intro g x hx
    obtain ⟨y, -, rfl⟩ := List.mem_map.1 hx
    exact ⟨rfl, rfl⟩
  have h1 := run_perm hp hd (run_view hr h ha)
  have h2 := run_view hr h' (C167_all cfg env hr _ h h' hp hd ha)
  have e := congrArg View.index (Run.det _ h1 h2)
  rw [(inv_run hr _ hi (fx h)).order c hc hl, (inv_run hr _ hi (fx h')).order c hc hl]
  have e' : used (run cfg (run cfg .init hist) (inBlock env h)) (keyOf c) =
      used (run cfg (run cfg .init hist) (inBlock env h')) (keyOf c) := by
    unfold used
    rw [show (run cfg (run cfg .init hist) (inBlock env h)).index.get (keyOf c) = _ from congrFun e (keyOf c)]
    rfl
  rw [e']

/-- C167 in full: for every name. -/
def C167_full : Prop :=
  ∀ (cfg : Config) (env : Env) (hist : List Step) (h h' : List Op), RangeOk env.hi → Fixed env.lo env.hi hist → h.Perm h' →
    h.Pairwise (Others env) → AllOk cfg (run cfg .init hist) (inBlock env h) → ∀ c : Str, c ≠ [] →
    assignedTo cfg (run cfg (run cfg .init hist) (inBlock env h)) c =
    assignedTo cfg (run cfg (run cfg .init hist) (inBlock env h')) c

/-- C167 fails for names with a long canonical form, which share a counter: the suffix of one depends on whether somebody has
asked for another before. -/
theorem C167_full_false : ¬C167_full := by
  intro hf
  have e := hf exCfg (exEnv 1) [] [.claim 1 1 (pl "블록체인" 50), .claim 2 2 (pl "부산광역시" 60)]
    [.claim 2 2 (pl "부산광역시" 60), .claim 1 1 (pl "블록체인" 50)] (by unfold RangeOk; decide) (by intro x hx; cases hx)
    (.swap _ _ _) (by simp [Others, signerOf, exEnv]) ⟨?_, ?_, trivial⟩ (canonical exCfg "블록체인".toList) (by decide +kernel)
  · revert e
    decide +kernel
  · have h1 : (dispatch exCfg .init ⟨exEnv 1, .claim 1 1 (pl "블록체인" 50)⟩).isOk = true := by decide +kernel
    cases hr : dispatch exCfg .init ⟨exEnv 1, .claim 1 1 (pl "블록체인" 50)⟩ with
    | ok v => exact ⟨v, hr⟩
    | error e => rw [hr] at h1; cases h1
  · have h1 : (dispatch exCfg (apply exCfg .init ⟨exEnv 1, .claim 1 1 (pl "블록체인" 50)⟩)
        ⟨exEnv 1, .claim 2 2 (pl "부산광역시" 60)⟩).isOk = true := by decide +kernel
    cases hr : dispatch exCfg (apply exCfg .init ⟨exEnv 1, .claim 1 1 (pl "블록체인" 50)⟩)
        ⟨exEnv 1, .claim 2 2 (pl "부산광역시" 60)⟩ with
    | ok v => exact ⟨v, hr⟩
    | error e => rw [hr] at h1; cases h1

/-- Two accounts claim the same name and a third retires its handle: all succeed in both orders, and the two have exchanged
their suffixes. -/
example :
    let s := run exCfg .init [⟨exEnv 1, .claim 3 3 (pl "carol" 20)⟩]
    let h : List Op := [.claim 1 1 (pl "alice" 50), .claim 2 2 (pl "alice" 60), .retire 3]
    h.Pairwise (Others (exEnv 30)) ∧
    ((run exCfg s (inBlock (exEnv 30) h)).byMsa.get 1).map Prod.fst =
      ((run exCfg s (inBlock (exEnv 30) h.reverse)).byMsa.get 2).map Prod.fst ∧
    ((run exCfg s (inBlock (exEnv 30) h)).byMsa.get 1).map Prod.fst ≠
      ((run exCfg s (inBlock (exEnv 30) h.reverse)).byMsa.get 1).map Prod.fst ∧
    (run exCfg s (inBlock (exEnv 30) h)).byMsa.get 3 = none ∧
    (assignedTo exCfg (run exCfg s (inBlock (exEnv 30) h)) (canonical exCfg "alice".toList)).length = 2 := by
  refine ⟨by simp [Others, signerOf, exEnv], ?_⟩
  decide +kernel

end Verif.Handles
