import Verif.Handles.Invariant
/-!
# Properties of the handles pallet
-/

namespace Verif.Handles

/-! ## Concrete configuration for the examples -/

/-- NFKD of one character, restricted to Hangul syllables (Unicode, section 3.12). -/
def nfkdHangul (c : Char) : Str :=
  let n := c.toNat
  if 0xAC00 ≤ n ∧ n ≤ 0xD7A3 then
    let s := n - 0xAC00
    [Char.ofNat (0x1100 + s / 588), Char.ofNat (0x1161 + s % 588 / 28)] ++
      (if s % 28 = 0 then [] else [Char.ofNat (0x11A7 + s % 28)])
  else [c]

/-- Entries of data/confusable_characters.txt for Hangul final consonants and ASCII letters. -/
def confusableTable : List (Nat × Nat) :=
  [(0x11a8, 0x1100), (0x11ab, 0x1102), (0x11ae, 0x1103), (0x11af, 0x1105), (0x11b7, 0x1106),
   (0x11b8, 0x1107), (0x11ba, 0x1109), (0x11bc, 0x110b), (0x11bd, 0x110c), (0x11be, 0x110e),
   (0x49, 0x31), (0x4f, 0x30), (0x69, 0x31), (0x6c, 0x31), (0x6f, 0x30), (0x7c, 0x31)]

/-- A configuration that treats ASCII and Hangul as the code does. A signature is valid if it is the
number of the key. -/
def exCfg : Config where
  nfkd := fun s => s.flatMap nfkdHangul
  isMark := fun _ => false
  confusable := fun c => match confusableTable.lookup c.toNat with
    | some n => Char.ofNat n
    | none => c
  verify := fun sig k _ => decide (sig = k)
  window := 100

/-- Block `b`, key number is account number, range of the runtime. -/
def exEnv (b : Nat) : Env := ⟨b, fun k => some k, 10, 99⟩

/-- Payload for a name. -/
def pl (name : String) (e : Nat) : Payload := ⟨utf8Encode name.toList, e⟩

/-- Two accounts claim the same name; the first retires it, then claims again. -/
def exHist : List Step :=
  [⟨exEnv 1, .claim 1 1 (pl "Abcdefg" 50)⟩, ⟨exEnv 2, .claim 2 2 (pl "abcdefg" 60)⟩,
   ⟨exEnv 49, .retire 1⟩, ⟨exEnv 50, .retire 1⟩, ⟨exEnv 51, .claim 1 1 (pl "abCdEfg" 100)⟩]

/-- State after it. -/
def exState : State := run exCfg .init exHist

/-- The suffixes are those of the test of the code; the early retirement is refused. -/
example : exState.byMsa.get 1 = some (displayOf "abCdEfg".toList 16, 100) ∧
    exState.byMsa.get 2 = some (displayOf "abcdefg".toList 65, 60) ∧
    assigned exCfg exState = [("abcdefg".toList, 23), ("abcdefg".toList, 65), ("abcdefg".toList, 16)] := by
  decide +kernel

theorem exFixed : Fixed 10 99 exHist := by
  intro x hx
  simp only [exHist, List.mem_cons, List.not_mem_nil, or_false] at hx
  rcases hx with rfl | rfl | rfl | rfl | rfl <;> exact ⟨rfl, rfl⟩

/-! ## C30 -/

/-- C30, partial: the account found for the handle of `m` is `m`, whenever the canonical base reported for
it is not empty. Missing: names whose canonical form has more than 32 bytes, see
`C30_korean_names_collide`, and runtime upgrades that change the suffix range, see
`C32_new_maximum_assigns_again`. -/
theorem C30_lookup_partial (cfg : Config) (lo hi : Nat) (hr : RangeOk hi) (hist : List Step)
    (hf : Fixed lo hi hist) (m : MsaId) (d : Bytes) (e : BlockNumber) (b k : Bytes) (x : Nat)
    (h : (run cfg .init hist).byMsa.get m = some (d, e))
    (hh : handleForMsa cfg (run cfg .init hist) m = some (b, k, x)) (hk : k ≠ []) :
    msaForHandle cfg (run cfg .init hist) d = some m := by
  have hi' := inv_run hr hist (inv_init cfg lo hi) hf
  generalize run cfg .init hist = s at *
  simp only [handleForMsa, h, Option.bind_eq_bind, Option.bind_some, Option.bind_eq_some_iff,
    Option.some.injEq, Prod.mk.injEq, canonicalBase_eq] at hh
  obtain ⟨str, h1, ⟨base, y⟩, h2, h3, h4, h5⟩ := hh
  have hp : partsOf d = some (base, y) := by simp [partsOf, h1, h2]
  have hlen : (utf8Encode (canonical cfg base)).length ≤ 32 := by
    unfold keyOf at h4
    split at h4
    · assumption
    · exact absurd h4.symm hk
  have := hi'.lookup m d e base y h hp hlen
  simp [msaForHandle, h1, h2, canonicalBase_eq, this]

/-- C30: two accounts never have the same display handle. -/
theorem C30_no_shared_handle (cfg : Config) (lo hi : Nat) (hr : RangeOk hi) (hist : List Step)
    (hf : Fixed lo hi hist) (m m' : MsaId) (d : Bytes) (e e' : BlockNumber)
    (h : (run cfg .init hist).byMsa.get m = some (d, e))
    (h' : (run cfg .init hist).byMsa.get m' = some (d, e')) : m = m' := by
  have hi' := inv_run hr hist (inv_init cfg lo hi) hf
  obtain ⟨base, x, hv, rfl, _, hx, _⟩ := hi'.stored m d e h
  have hp := partsOf_displayOf (n := x) hv.noDot (by unfold RangeOk at hr; omega)
  exact hi'.distinct m m' _ _ e e' base x base x h h' hp hp rfl

/-- C30: an account found for a display handle has a handle at that time, with this suffix and with the
same canonical base. In particular a retired handle leads to nobody until it is claimed again. -/
theorem C30_found_account_has_handle (cfg : Config) (lo hi : Nat) (hr : RangeOk hi) (hist : List Step)
    (hf : Fixed lo hi hist) (base : Str) (hb : '.' ∉ base) (x : Nat) (hx : x ≤ 65535) (m : MsaId)
    (h : msaForHandle cfg (run cfg .init hist) (displayOf base x) = some m) :
    ∃ b, handleForMsa cfg (run cfg .init hist) m = some (b, (canonicalBase cfg base).2, x) := by
  have hi' := inv_run hr hist (inv_init cfg lo hi) hf
  generalize run cfg .init hist = s at *
  have hdec : utf8Decode (displayOf base x) = some (displayStr base x) := utf8Decode_encode _
  simp only [msaForHandle, hdec, Option.getD_some, splitDisplayName_displayStr hb hx,
    Option.bind_eq_bind, Option.bind_some, canonicalBase_eq] at h
  obtain ⟨d, e, b, h1, h2, h3⟩ := hi'.holder _ _ _ h
  simp only [partsOf, Option.bind_eq_some_iff] at h2
  obtain ⟨str, h4, h5⟩ := h2
  exact ⟨utf8Encode b, by simp [handleForMsa, h1, h4, h5, canonicalBase_eq, h3]⟩

/-- Hypotheses met; the retired handle leads to nobody. -/
example : RangeOk 99 ∧ msaForHandle exCfg exState (displayOf "ABCDEFG".toList 16) = some 1 ∧
    msaForHandle exCfg exState (displayOf "abcdefg".toList 65) = some 2 ∧
    msaForHandle exCfg exState (displayOf "abcdefg".toList 23) = none := by
  refine ⟨by unfold RangeOk; omega, ?_⟩
  decide +kernel

/-- C30 is false of the code: Korean names of four or five syllables have canonical forms of more than 32
bytes, which all share the empty key. An account claims `블록체인` and gets suffix 54; another claims
`부산광역시` and gets suffix 54, too. The handle of the first now leads to the second; and when the first
account retires its handle, the handle of the second leads to nobody. -/
theorem C30_korean_names_collide :
    let a := displayOf "블록체인".toList 54
    let b := displayOf "부산광역시".toList 54
    let s := run exCfg .init [⟨exEnv 1, .claim 1 1 (pl "블록체인" 50)⟩, ⟨exEnv 2, .claim 2 2 (pl "부산광역시" 60)⟩]
    s.byMsa.get 1 = some (a, 50) ∧ s.byMsa.get 2 = some (b, 60) ∧ msaForHandle exCfg s a = some 2 ∧
    msaForHandle exCfg (apply exCfg s ⟨exEnv 50, .retire 1⟩) b = none := by
  decide +kernel

/-! ## C31 -/

/-- C31: the suffix sequence of every name contains every number from `lo` to `hi` exactly once. -/
theorem C31_permutation (lo hi : Nat) (c : Str) :
    (uniqueSuffixes lo hi c).Nodup ∧ ∀ x, x ∈ uniqueSuffixes lo hi c ↔ lo ≤ x ∧ x ≤ hi :=
  ⟨uniqueSuffixes_nodup lo hi c, mem_uniqueSuffixes lo hi c⟩

/-- The shuffle with an arbitrary stream of draws, `f k` being the draw when `k + 1` numbers remain. -/
def shuffle (lo : Nat) : Nat → (Nat → Nat) → List Nat → List Nat
  | 0, _, _ => []
  | k + 1, f, l => ((swap l k (f k - lo))[k]?.getD 0) :: shuffle lo k f (swap l k (f k - lo))

theorem shuffle_perm (lo : Nat) (f : Nat → Nat) (k : Nat) : ∀ (l : List Nat), k ≤ l.length →
    (∀ i < k, lo ≤ f i ∧ f i ≤ lo + i) → (shuffle lo k f l).Perm (l.take k) := by
  induction k with
  | zero => intro l _ _; simp [shuffle]
  | succ k ih =>
    intro l hk hf
    rw [shuffle]
    have hj := hf k (by omega)
    have hl := length_swap l k (f k - lo)
    have hp := swap_take (l := l) (i := k) (j := f k - lo) hk (by omega) (by omega)
    have hrec := ih (swap l k (f k - lo)) (by omega) (fun i hi => hf i (by omega))
    refine List.Perm.trans ?_ hp
    rw [List.take_succ_eq_append_getElem (by omega), List.getElem?_eq_getElem (by omega)]
    simp only [Option.getD_some]
    exact (List.Perm.cons _ hrec).trans (List.perm_append_singleton _ _).symm

theorem shuffle_congr (lo : Nat) {f g : Nat → Nat} (k : Nat) : ∀ (l : List Nat), (∀ i < k, f i = g i) →
    shuffle lo k f l = shuffle lo k g l := by
  induction k with
  | zero => intro l _; rfl
  | succ k ih =>
    intro l h
    simp only [shuffle, h k (by omega)]
    rw [ih _ (fun i hi => h i (by omega))]

/-- C31: the sequence of the code is the shuffle for the stream of its generator, whatever its state. -/
theorem C31_is_shuffle (lo : Nat) (k : Nat) : ∀ (r : Rand32) (l : List Nat),
    ∃ f, (∀ i < k, lo ≤ f i ∧ f i ≤ lo + i) ∧ suffixes lo k r l = shuffle lo k f l := by
  induction k with
  | zero => intro r l; exact ⟨fun _ => 0, by simp, rfl⟩
  | succ k ih =>
    intro r l
    obtain ⟨h1, h2⟩ := r.range_mem (lo := lo) (hi := lo + k + 1) (by omega)
    generalize hj : (r.range lo (lo + k + 1)) = p at h1 h2
    obtain ⟨j, r'⟩ := p
    simp only at h1 h2
    obtain ⟨f, hf, he⟩ := ih r' (swap l k (j - lo))
    refine ⟨fun i => if i = k then j else f i, ?_, ?_⟩
    · intro i hi
      simp only
      split
      · omega
      · exact hf i (by omega)
    · simp only [suffixes, hj, shuffle, if_true, he]
      congr 1
      exact shuffle_congr lo k _ (fun i hi => by rw [if_neg (by omega)])

/-- C31: for every stream of draws within their ranges, the shuffle lists every number from `lo` to `hi`
exactly once. -/
theorem C31_any_stream (lo hi : Nat) (f : Nat → Nat) (hf : ∀ i < hi + 1 - lo, lo ≤ f i ∧ f i ≤ lo + i) :
    let l := shuffle lo (hi + 1 - lo) f (List.range' lo (hi + 1 - lo))
    l.Nodup ∧ ∀ x, x ∈ l ↔ lo ≤ x ∧ x ≤ hi := by
  intro l
  have hp : l.Perm (List.range' lo (hi + 1 - lo)) := by
    have := shuffle_perm lo f (hi + 1 - lo) (List.range' lo (hi + 1 - lo)) (by simp) hf
    rwa [List.take_of_length_le (by simp)] at this
  refine ⟨hp.nodup_iff.2 List.nodup_range', fun x => ?_⟩
  rw [hp.mem_iff, List.mem_range'_1]
  omega

/-- The stream that always draws the smallest number. -/
example : shuffle 10 4 (fun _ => 10) [10, 11, 12, 13] = [10, 13, 12, 11] := by decide

/-- A short sequence. -/
example : uniqueSuffixes 10 15 "abc".toList ≠ [10, 11, 12, 13, 14, 15] ∧
    (uniqueSuffixes 10 15 "abc".toList).length = 6 ∧ uniqueSuffixes 10 15 "abc".toList ≠ [15, 14, 13, 12, 11, 10] := by
  decide +kernel

/-! ## C32 -/

/-- C32, partial: while the suffix range is unchanged, no canonical name is assigned the same suffix
twice, in any history. Missing: an unchanged minimum with a changed maximum, where the claim is false. -/
theorem C32_never_assigned_twice_partial (cfg : Config) (lo hi : Nat) (hr : RangeOk hi) (hist : List Step)
    (hf : Fixed lo hi hist) : (assigned cfg (run cfg .init hist)).Nodup :=
  (inv_run hr hist (inv_init cfg lo hi) hf).nodup

/-- `assigned` does list what is assigned: a successful claim adds its canonical name and the suffix of
the display handle it announces. -/
theorem C32_assigned_complete (cfg : Config) (env : Env) (hr : RangeOk env.hi) (s s' : State) (k : AccountId)
    (sig : Signature) (p : Payload) (h : claim cfg env s k sig p = .ok s') :
    ∃ m base x, utf8Decode p.baseHandle = some base ∧ env.msaOf k = some m ∧
      s'.events = s.events ++ [.claimed m (displayOf base x)] ∧
      assigned cfg s' = assigned cfg s ++ [(canonical cfg base, x)] := by
  have he := apply_eff cfg s ⟨env, .claim k sig p⟩
  have ha : apply cfg s ⟨env, .claim k sig p⟩ = s' := by simp [apply, dispatch, h]
  rw [ha] at he
  clear ha
  generalize hx : (⟨env, .claim k sig p⟩ : Step) = x at he
  cases he with
  | fail _ _ hd => subst hx; have hd : claim cfg env s k sig p = .error _ := hd; rw [h] at hd; cases hd
  | @claim env' k' sig' p' m s1 d base i x hlen hm hw hsig hc =>
    cases hx
    have hxm := (mem_uniqueSuffixes _ _ _ x).1 (List.mem_of_getElem? hc.suffix)
    have hnd : '.' ∉ base := fun hmem => hc.blocked _ hmem (by decide)
    have hp := partsOf_displayOf (n := x) hnd (by unfold RangeOk at hr; omega)
    refine ⟨m, base, x, hc.decoded, hm, ?_, ?_⟩
    · rw [hc.state, hc.display]
    · rw [hc.state, hc.display]
      simp [assigned, claimedName, hp]
  | change => cases hx
  | retire => cases hx
  | retireWrapped => cases hx

/-- Hypotheses met. -/
example : Fixed 10 99 exHist ∧ (assigned exCfg exState).length = 3 := ⟨exFixed, by decide +kernel⟩

/-- C32 is false of the code when only the maximum changes: after an upgrade that raises the largest
suffix from 99 to 999, the second claim of `mad` gets suffix 64, like the first. Both accounts now have the
display handle `mad.64`, which leads to the second. -/
theorem C32_new_maximum_assigns_again :
    let s := run exCfg .init [⟨exEnv 1, .claim 1 1 (pl "mad" 50)⟩,
      ⟨⟨20, fun k => some k, 10, 999⟩, .claim 2 2 (pl "mad" 60)⟩]
    let d := displayOf "mad".toList 64
    s.byMsa.get 1 = some (d, 50) ∧ s.byMsa.get 2 = some (d, 60) ∧ msaForHandle exCfg s d = some 2 := by
  decide +kernel

/-! ## C33 -/

/-- Histories extend the list of assignments. -/
theorem events_prefix (cfg : Config) (hist : List Step) : ∀ s : State,
    ∃ t, (run cfg s hist).events = s.events ++ t := by
  induction hist with
  | nil => intro s; exact ⟨[], by simp [run]⟩
  | cons x rest ih =>
    intro s
    have hrun : run cfg s (x :: rest) = run cfg (apply cfg s x) rest := rfl
    rw [hrun]
    obtain ⟨t, ht⟩ := ih (apply cfg s x)
    have : ∃ u, (apply cfg s x).events = s.events ++ u := by
      have he := apply_eff cfg s x
      generalize apply cfg s x = s' at he
      cases he with
      | fail e h => exact ⟨[], by simp⟩
      | claim hlen hm hw hsig h => exact ⟨_, by rw [h.state]⟩
      | change hlen hm hw hsig h1 h => rw [h.state, h1.state]; exact ⟨_, by simp; rfl⟩
      | retire hm h hexp => exact ⟨_, by rw [h.state]⟩
      | retireWrapped hm h => exact ⟨_, by rw [h.state]⟩
    obtain ⟨u, hu⟩ := this
    exact ⟨u ++ t, by rw [ht, hu, List.append_assoc]⟩

theorem used_le_mono {cfg lo hi} (hr : RangeOk hi) (c : Str) (hist : List Step) :
    ∀ s : State, Inv cfg lo hi s → Fixed lo hi hist → used s (keyOf c) ≤ used (run cfg s hist) (keyOf c) := by
  induction hist with
  | nil => intro s _ _; exact Nat.le_refl _
  | cons x rest ih =>
    intro s hi' hf
    have hrun : run cfg s (x :: rest) = run cfg (apply cfg s x) rest := rfl
    rw [hrun]
    refine Nat.le_trans ?_ (ih (apply cfg s x) (inv_apply hi' hr x (hf x (by simp)))
      (fun y hy => hf y (by simp [hy])))
    have hx := hf x (by simp)
    have he := apply_eff cfg s x
    generalize apply cfg s x = s' at he
    have hcl : ∀ {s : State} {env m p s' d base i x}, Inv cfg lo hi s → env.lo = lo →
        Claimed cfg env s m p s' d base i x → used s (keyOf c) ≤ used s' (keyOf c) := by
      intro s env m p s' d base i x hi' hl h
      have hn := hi'.next hl h.nextIndex
      have hst := h.state
      subst hst
      by_cases hk : keyOf (canonical cfg base) = keyOf c
      · rw [← hk, ← hn]
        unfold used
        simp only [SMap.get_insert_self]
        omega
      · unfold used
        simp only [SMap.get_insert_ne _ hk]
        exact Nat.le_refl _
    cases he with
    | fail e h => exact Nat.le_refl _
    | claim hlen hm hw hsig h => exact (hcl hi' hx.1 h :)
    | change hlen hm hw hsig h1 h =>
      have h2 := hcl (inv_retire hi' hr h1) hx.1 h
      have hst := h1.state
      subst hst
      exact h2
    | retire hm h hexp => rw [h.state]; exact Nat.le_refl _
    | retireWrapped hm h => rw [h.state]; exact Nat.le_refl _

/-- C33, partial: whatever happens after a query for `count` suffixes of a name, the `k`-th suffix assigned
afterwards to a handle with the same canonical form is the `k`-th of the answer, for every `k` below
`count`. Missing: canonical forms of more than 32 bytes, which share one index. -/
theorem C33_preview_partial (cfg : Config) (lo hi : Nat) (hr : RangeOk hi) (before hist : List Step)
    (hf : Fixed lo hi (before ++ hist)) (base : Str) (count : Nat)
    (hne : canonical cfg base ≠ []) (hlen : (utf8Encode (canonical cfg base)).length ≤ 32)
    (env : Env) (henv : env.lo = lo ∧ env.hi = hi) (k : Nat) (hk : k < count) (x : Nat)
    (hx : ((assignedTo cfg (run cfg .init (before ++ hist)) (canonical cfg base)).drop
      (assignedTo cfg (run cfg .init before) (canonical cfg base)).length)[k]? = some x) :
    (nextSuffixes cfg env (run cfg .init before) (utf8Encode base) count)[k]? = some x := by
  have hf1 : Fixed lo hi before := fun y hy => hf y (by simp [hy])
  have hf2 : Fixed lo hi hist := fun y hy => hf y (by simp [hy])
  have hrun : run cfg .init (before ++ hist) = run cfg (run cfg .init before) hist := by
    simp [run, List.foldl_append]
  have hi1 := inv_run hr before (inv_init cfg lo hi) hf1
  rw [hrun] at hx
  have hi2 := inv_run hr hist hi1 hf2
  have hmono := used_le_mono hr (canonical cfg base) hist _ hi1 hf2
  generalize run cfg .init before = s at *
  generalize run cfg s hist = s' at *
  rw [hi1.order _ hne hlen, hi2.order _ hne hlen] at hx
  rw [List.getElem?_drop] at hx
  have hx' : (uniqueSuffixes lo hi (canonical cfg base))[((uniqueSuffixes lo hi (canonical cfg base)).take
      (used s (keyOf (canonical cfg base)))).length + k]? = some x := by
    rw [List.getElem?_take] at hx
    split at hx
    · exact hx
    · cases hx
  have hlt := (List.getElem?_eq_some_iff.1 hx').1
  have hlen1 : ((uniqueSuffixes lo hi (canonical cfg base)).take
      (used s (keyOf (canonical cfg base)))).length = used s (keyOf (canonical cfg base)) := by
    rw [List.length_take] at hlt ⊢
    omega
  rw [hlen1] at hx' hlt
  rw [length_uniqueSuffixes] at hlt
  have hnext : nextSuffixIndex env s (keyOf (canonical cfg base)) = .ok (used s (keyOf (canonical cfg base))) := by
    unfold nextSuffixIndex
    unfold used at hlt ⊢
    cases hg : s.index.get (keyOf (canonical cfg base)) with
    | none => rfl
    | some p =>
      obtain ⟨i, l⟩ := p
      have := hi1.indexLo _ _ _ hg
      rw [hg] at hlt
      simp only at hlt ⊢
      unfold RangeOk at hr
      rw [if_neg (by rw [this, henv.1]; simp), if_pos (by omega)]
  unfold nextSuffixes
  rw [utf8Decode_encode]
  simp only [Option.getD_some, canonicalBase_eq, hnext]
  rw [collect_full, henv.1, henv.2, List.getElem?_take, if_pos hk, List.getElem?_drop]
  exact hx'

/-- Hypotheses met: the suffixes announced before the history are those given out in it. -/
example : nextSuffixes exCfg (exEnv 1) .init (utf8Encode "ABCDEFG".toList) 4 = [23, 65, 16, 53] ∧
    assignedTo exCfg exState "abcdefg".toList = [23, 65, 16] ∧
    nextSuffixes exCfg (exEnv 1) exState (utf8Encode "ABCDEFG".toList) 2 = [53, 25] := by decide +kernel

/-- No index was reached beyond the last suffix of the range. -/
theorem index_lt {cfg lo hi} (hist : List Step) : ∀ s : State, (∀ k p, s.index.get k = some p → p.1 < hi + 1 - lo) →
    Fixed lo hi hist → ∀ k p, (run cfg s hist).index.get k = some p → p.1 < hi + 1 - lo := by
  induction hist with
  | nil => intro s h _; exact h
  | cons x rest ih =>
    intro s h hf
    have hrun : run cfg s (x :: rest) = run cfg (apply cfg s x) rest := rfl
    rw [hrun]
    refine ih (apply cfg s x) ?_ (fun y hy => hf y (by simp [hy]))
    have hx := hf x (by simp)
    have he := apply_eff cfg s x
    generalize apply cfg s x = s' at he
    have hcl : ∀ {s : State} {m p s' d base i y}, (∀ k p, s.index.get k = some p → p.1 < hi + 1 - lo) →
        Claimed cfg x.env s m p s' d base i y → ∀ k p, s'.index.get k = some p → p.1 < hi + 1 - lo := by
      intro s m p s' d base i y h hc k q hq
      have hlt := (List.getElem?_eq_some_iff.1 hc.suffix).1
      rw [length_uniqueSuffixes, hx.1, hx.2] at hlt
      rw [hc.state] at hq
      dsimp only at hq
      rw [SMap.get_insert] at hq
      split at hq
      · cases hq; exact hlt
      · exact h k q hq
    cases he with
    | fail e _ => exact h
    | claim hlen hm hw hsig h1 => exact fun k p hq => hcl h h1 k p hq
    | change hlen hm hw hsig h1 h2 =>
      refine fun k p hq => hcl ?_ h2 k p hq
      rw [h1.state]
      exact h
    | retire hm h1 hexp => rw [h1.state]; exact h
    | retireWrapped hm h1 => rw [h1.state]; exact h

/-- C33, partial: no more suffixes are announced than are left for the name, and as many as asked for if there are;
nothing for a name all of whose suffixes were given out. Missing as in `C33_preview_partial`. -/
theorem C33_number_partial (cfg : Config) (lo hi : Nat) (hr : RangeOk hi) (hist : List Step) (hf : Fixed lo hi hist)
    (base : Str) (count : Nat) (hne : canonical cfg base ≠ []) (hlen : (utf8Encode (canonical cfg base)).length ≤ 32)
    (env : Env) (henv : env.lo = lo ∧ env.hi = hi) :
    (nextSuffixes cfg env (run cfg .init hist) (utf8Encode base) count).length =
      min count (hi + 1 - lo - (assignedTo cfg (run cfg .init hist) (canonical cfg base)).length) := by
  have h1 := inv_run hr hist (inv_init cfg lo hi) hf
  have h2 := index_lt (cfg := cfg) hist .init (fun k p h => by cases h) hf
  generalize run cfg .init hist = s at *
  have hu : used s (keyOf (canonical cfg base)) ≤ hi + 1 - lo ∧
      nextSuffixIndex env s (keyOf (canonical cfg base)) = .ok (used s (keyOf (canonical cfg base))) := by
    unfold nextSuffixIndex used
    cases hg : s.index.get (keyOf (canonical cfg base)) with
    | none => exact ⟨Nat.zero_le _, rfl⟩
    | some p =>
      obtain ⟨i, l⟩ := p
      have hl := h1.indexLo _ _ _ hg
      have hi' := h2 _ _ hg
      unfold RangeOk at hr
      dsimp only at hi' ⊢
      refine ⟨by omega, ?_⟩
      rw [if_neg (by rw [hl, henv.1]; simp), if_pos (by omega)]
  unfold nextSuffixes
  rw [utf8Decode_encode]
  simp only [Option.getD_some, canonicalBase_eq, hu.2]
  rw [collect_full, h1.order _ hne hlen, henv.1, henv.2, List.length_take, List.length_drop, List.length_take,
    length_uniqueSuffixes]
  omega

/-- Hypotheses met, with a range of three suffixes: two are left, and none. -/
example :
    let env := fun n => { exEnv n with lo := 10, hi := 12 }
    let s := run exCfg .init [⟨env 1, .claim 1 1 (pl "abcdefg" 50)⟩]
    let s' := run exCfg s [⟨env 2, .claim 2 2 (pl "abcdefg" 60)⟩, ⟨env 3, .claim 3 3 (pl "abcdefg" 60)⟩]
    (nextSuffixes exCfg (env 4) s (utf8Encode "ABCDEFG".toList) 5).length = 2 ∧
    nextSuffixes exCfg (env 4) s' (utf8Encode "ABCDEFG".toList) 5 = [] := by decide +kernel

/-- C33 is false of the code for long canonical forms: suffix 65 is announced for `부산광역시`, then another
name is claimed, then `부산광역시` gets suffix 54. -/
theorem C33_korean_preview_wrong :
    let s := run exCfg .init [⟨exEnv 1, .claim 1 1 (pl "블록체인" 50)⟩, ⟨exEnv 2, .claim 2 2 (pl "부산광역시" 60)⟩]
    nextSuffixes exCfg (exEnv 1) .init (utf8Encode "부산광역시".toList) 1 = [65] ∧
    s.byMsa.get 2 = some (displayOf "부산광역시".toList 54, 60) := by
  decide +kernel

/-! ## C34 -/

/-- C34: for every base name that validation accepts and every suffix, the display handle can be built,
and splitting it gives back the name and the suffix. -/
theorem C34_split_inverse (b : Bytes) (base : Str) (x : Nat) (hlen : b.length ≤ 32)
    (h : validateBaseHandle b = .ok base) (hx : x ≤ 65535) :
    ∃ d, buildDisplay base x = .ok d ∧ (utf8Decode d).bind splitDisplayName = some (base, x) ∧
      utf8Encode base = b := by
  simp only [validateBaseHandle, bind_eq_ok_iff, okOr_eq_ok_iff, ensure_eq_ok_iff, pure_eq_ok_iff] at h
  obtain ⟨str, h1, _, h2, _, h3, _, h4, rfl⟩ := h
  have henc := utf8Encode_decode h1
  have hdot : '.' ∉ str := by
    intro hm
    simp only [containsBlocked, List.any_eq_false, List.contains_iff_mem] at h4
    exact h4 _ hm (by decide)
  have hd : utf8Encode str ++ utf8Encode ['.'] ++ utf8Encode (Nat.toDigits 10 x) = displayOf str x := by
    simp [displayOf, displayStr, utf8Encode, dec]
  refine ⟨displayOf str x, ?_, partsOf_displayOf hdot hx, henc⟩
  have hl : (displayOf str x).length ≤ displayMax := by
    rw [← hd, List.length_append, List.length_append, henc]
    have h5 := length_dec 4 x (by omega)
    have h6 := utf8_digits (dec x) (fun c hc => dec_digit hc)
    unfold dec at h5 h6
    have h7 : (utf8Encode ['.']).length = 1 := by decide +kernel
    unfold displayMax bytesMax
    omega
  unfold buildDisplay
  simp only [hd]
  simp [ensure, hl, bind, Except.bind, pure, Except.pure]

example : (validateBaseHandle (utf8Encode "블록체인".toList)).isOk = true ∧
    (buildDisplay "블록체인".toList 65535).toOption = some (utf8Encode "블록체인.65535".toList) := by
  decide +kernel

/-! ## C35 -/

/-- C35: every stored display handle consists of a valid base name, the delimiter and a suffix in the
range. -/
theorem C35_stored_names_valid (cfg : Config) (lo hi : Nat) (hr : RangeOk hi) (hist : List Step)
    (hf : Fixed lo hi hist) (m : MsaId) (d : Bytes) (e : BlockNumber)
    (h : (run cfg .init hist).byMsa.get m = some (d, e)) :
    ∃ (base : Str) (x : Nat), d = utf8Encode (base ++ '.' :: Nat.toDigits 10 x) ∧ lo ≤ x ∧ x ≤ hi ∧
      3 ≤ base.length ∧ base.length ≤ 20 ∧ (utf8Encode base).length ≤ 32 ∧
      (∀ c ∈ base, c ∉ ['"', '#', '%', '(', ')', ',', '.', ':', ';', '<', '>', '@', '\\', '`', '{', '}']) ∧
      base ∉ ["admin".toList, "everyone".toList, "all".toList, "administrator".toList, "mod".toList,
        "moderator".toList, "here".toList, "channel".toList] ∧
      3 ≤ (canonical cfg base).length ∧ (canonical cfg base).length ≤ 20 := by
  have hi' := inv_run hr hist (inv_init cfg lo hi) hf
  obtain ⟨base, x, hv, rfl, h1, h2, _⟩ := hi'.stored m d e h
  exact ⟨base, x, rfl, h1, h2, hv.chars.1, hv.chars.2, hv.bytes, hv.blocked, hv.reserved,
    hv.canonicalChars.1, hv.canonicalChars.2⟩

/-- C35 when the suffix range changes with the runtime: the name is valid, and the suffix is inside a range
that was configured at some step of the history. -/
theorem C35_stored_names_valid_any_range (cfg : Config) (hist : List Step) (m : MsaId) (d : Bytes) (e : BlockNumber)
    (h : (run cfg .init hist).byMsa.get m = some (d, e)) :
    ∃ (base : Str) (x : Nat), d = utf8Encode (base ++ '.' :: Nat.toDigits 10 x) ∧
      (∃ y ∈ hist, y.env.lo ≤ x ∧ x ≤ y.env.hi) ∧
      3 ≤ base.length ∧ base.length ≤ 20 ∧ (utf8Encode base).length ≤ 32 ∧
      (∀ c ∈ base, c ∉ ['"', '#', '%', '(', ')', ',', '.', ':', ';', '<', '>', '@', '\\', '`', '{', '}']) ∧
      base ∉ ["admin".toList, "everyone".toList, "all".toList, "administrator".toList, "mod".toList,
        "moderator".toList, "here".toList, "channel".toList] ∧
      3 ≤ (canonical cfg base).length ∧ (canonical cfg base).length ≤ 20 := by
  suffices hs : ∃ base x, ValidBase cfg base ∧ d = displayOf base x ∧ ∃ y ∈ hist, y.env.lo ≤ x ∧ x ≤ y.env.hi by
    obtain ⟨base, x, hv, rfl, hy⟩ := hs
    exact ⟨base, x, rfl, hy, hv.chars.1, hv.chars.2, hv.bytes, hv.blocked, hv.reserved,
      hv.canonicalChars.1, hv.canonicalChars.2⟩
  have main : ∀ (all hist : List Step) (s : State), (∀ y ∈ hist, y ∈ all) →
      (∀ m d e, s.byMsa.get m = some (d, e) →
        ∃ base x, ValidBase cfg base ∧ d = displayOf base x ∧ ∃ y ∈ all, y.env.lo ≤ x ∧ x ≤ y.env.hi) →
      ∀ m d e, (run cfg s hist).byMsa.get m = some (d, e) →
        ∃ base x, ValidBase cfg base ∧ d = displayOf base x ∧ ∃ y ∈ all, y.env.lo ≤ x ∧ x ≤ y.env.hi := by
    intro all hist
    induction hist with
    | nil => intro s _ h; exact h
    | cons z rest ih =>
      intro s hall hs
      refine ih (apply cfg s z) (fun y hy => hall y (by simp [hy])) ?_
      have he := apply_eff cfg s z
      have hz := hall z (by simp)
      have hcl : ∀ {env s m p s' d base i x}, env = z.env → p.baseHandle.length ≤ 32 →
          Claimed cfg env s m p s' d base i x →
          (∀ m d e, s.byMsa.get m = some (d, e) →
            ∃ base x, ValidBase cfg base ∧ d = displayOf base x ∧ ∃ y ∈ all, y.env.lo ≤ x ∧ x ≤ y.env.hi) →
          ∀ m d e, s'.byMsa.get m = some (d, e) →
            ∃ base x, ValidBase cfg base ∧ d = displayOf base x ∧ ∃ y ∈ all, y.env.lo ≤ x ∧ x ≤ y.env.hi := by
        intro env s m p s' d base i x henv hlen h hs m' d' e' hg
        rw [h.state] at hg
        simp only [SMap.get_insert] at hg
        split at hg
        · cases hg
          refine ⟨base, x, ⟨h.chars, by rw [utf8Encode_decode h.decoded]; exact hlen, h.blocked, h.reserved, h.supp,
            h.canonicalChars⟩, h.display, z, hz, ?_⟩
          have := (mem_uniqueSuffixes _ _ _ x).1 (List.mem_of_getElem? h.suffix)
          rw [← henv]
          exact this
        · exact hs _ _ _ hg
      have hre : ∀ {s m s1 d base x e}, Retired cfg s m s1 d base x e →
          (∀ m d e, s.byMsa.get m = some (d, e) →
            ∃ base x, ValidBase cfg base ∧ d = displayOf base x ∧ ∃ y ∈ all, y.env.lo ≤ x ∧ x ≤ y.env.hi) →
          ∀ m d e, s1.byMsa.get m = some (d, e) →
            ∃ base x, ValidBase cfg base ∧ d = displayOf base x ∧ ∃ y ∈ all, y.env.lo ≤ x ∧ x ≤ y.env.hi := by
        intro s m s1 d base x e h hs m' d' e' hg
        rw [h.state] at hg
        simp only [SMap.get_erase] at hg
        split at hg
        · cases hg
        · exact hs _ _ _ hg
      generalize apply cfg s z = s' at he
      cases he with
      | fail e h => exact hs
      | claim hlen hm hw hsig h => have q := hcl rfl hlen h hs; exact q
      | change hlen hm hw hsig h1 h => have q0 := hre h1 hs; have q := hcl rfl hlen h q0; exact q
      | retire hm h hexp => have q := hre h hs; exact q
      | retireWrapped hm h => have q := hre h hs; exact q
  exact main hist hist .init (fun _ h => h) (by intro m d e h; cases h) m d e h

/-- Invalid names are refused: too short, blocked character, reserved word, not UTF-8. -/
example : ∀ b ∈ [utf8Encode "ab".toList, utf8Encode "a.bc".toList, utf8Encode "all".toList, [0x61, 0x62, 0xff]],
    (apply exCfg .init ⟨exEnv 1, .claim 1 1 ⟨b, 50⟩⟩).byMsa.get 1 = none := by decide +kernel

/-! ## C36 -/

/-- C36, partial: if the query accepts a name of at most 32 bytes whose canonical form has 3 to 20
characters, claiming it fails only because the account has a handle or the suffixes are used up. Missing:
the two conditions on lengths, which the query does not check. -/
theorem C36_query_agrees_partial (cfg : Config) (env : Env) (hr : RangeOk env.hi) (s : State) (m : MsaId)
    (p : Payload) (hq : validateHandle cfg p.baseHandle = true) (hlen : p.baseHandle.length ≤ 32)
    (hcl : ∀ base, utf8Decode p.baseHandle = some base →
      3 ≤ (canonical cfg base).length ∧ (canonical cfg base).length ≤ 20)
    (er : Err) (h : doClaim cfg env s m p = .error er) :
    er = .msaHandleAlreadyExists ∨ er = .suffixesExhausted := by
  unfold validateHandle at hq
  cases hv : validateBaseHandle p.baseHandle with
  | error e => rw [hv] at hq; cases hq
  | ok base =>
    rw [hv] at hq
    have hdec : utf8Decode p.baseHandle = some base := by
      have := hv
      simp only [validateBaseHandle, bind_eq_ok_iff, okOr_eq_ok_iff, ensure_eq_ok_iff, pure_eq_ok_iff] at this
      obtain ⟨str, h1, _, _, _, _, _, _, rfl⟩ := this
      exact h1
    have hcl := hcl base hdec
    have hsup : validateSupported (canonicalBase cfg base).1 = .ok () := by
      cases hs : validateSupported (canonicalBase cfg base).1 with
      | ok u => rfl
      | error e => simp [hs, Except.isOk, Except.toBool] at hq
    have hcan : validateCanonicalLength (canonicalBase cfg base).1 = .ok () := by
      unfold validateCanonicalLength
      exact ensure_eq_ok_iff.2 hcl
    unfold doClaim at h
    rw [bind_eq_error_iff] at h
    rcases h with h | ⟨_, _, h⟩
    · rw [ensure_eq_error_iff] at h; exact .inl h.2.symm
    rw [hv] at h
    simp only [bind, Except.bind] at h
    rw [hsup] at h
    simp only at h
    rw [hcan] at h
    simp only at h
    cases hn : nextSuffixIndex env s (canonicalBase cfg base).2 with
    | error e =>
      rw [hn] at h
      cases h
      right
      unfold nextSuffixIndex at hn
      split at hn
      · cases hn
      · split at hn
        · cases hn
        · split at hn
          · cases hn
          · cases hn; rfl
    | ok i =>
      rw [hn] at h
      simp only at h
      cases hg : generateSuffix env (canonicalBase cfg base).1 i with
      | error e =>
        rw [hg] at h
        cases h
        right
        unfold generateSuffix at hg
        rw [okOr_eq_error_iff] at hg
        exact hg.2.symm
      | ok x =>
        exfalso
        rw [hg] at h
        simp only at h
        unfold generateSuffix at hg
        rw [okOr_eq_ok_iff] at hg
        have hx := (mem_uniqueSuffixes _ _ _ x).1 (List.mem_of_getElem? hg)
        obtain ⟨d, hd, _⟩ := C34_split_inverse p.baseHandle base x hlen hv (by unfold RangeOk at hr; omega)
        rw [hd] at h
        cases h

/-- Hypotheses met, with the suffixes of a range of one used up. -/
example : validateHandle exCfg (utf8Encode "abcdefg".toList) = true ∧
    (doClaim exCfg ⟨1, fun k => some k, 10, 10⟩ exState 7 (pl "abcdefg" 50)).isOk = false := by decide +kernel

/-- C36 is false of the code: the query accepts a name whose canonical form is empty, and a name of 60
bytes; both claims fail because of the name. -/
theorem C36_query_too_lenient :
    let e1 := apply exCfg .init ⟨exEnv 1, .claim 1 1 (pl "   " 50)⟩
    let e2 := apply exCfg .init ⟨exEnv 1, .claim 1 1 (pl "가나다라마바사아자차카타파하가나다라마바" 50)⟩
    validateHandle exCfg (utf8Encode "   ".toList) = true ∧ e1.byMsa.get 1 = none ∧
    validateHandle exCfg (utf8Encode "가나다라마바사아자차카타파하가나다라마바".toList) = true ∧
    e2.byMsa.get 1 = none := by
  decide +kernel

/-! ## C37 -/

/-- The supported blocks of Unicode, by their names in the comments of handles-utils/constants.rs. -/
inductive Script
  | basicLatin | latin1Supplement | latinExtendedA | greekAndCoptic | cyrillic | cyrillicSupplement | hebrew | arabic
  | devanagari | bengali | thai | hangulJamo | latinExtendedAdditional | greekExtended | hiragana | katakana
  | cjkUnifiedIdeographsExtensionA | cjkUnifiedIdeographs | hangulSyllables | cjkCompatibilityIdeographs
  | arabicPresentationFormsA

/-- First and last code points of the blocks in the Unicode standard (of Basic Latin from the space on). -/
def Script.block : Script → Nat × Nat
  | .basicLatin => (32, 127)
  | .latin1Supplement => (128, 255)
  | .latinExtendedA => (256, 383)
  | .greekAndCoptic => (0x370, 0x3FF)
  | .cyrillic => (0x400, 0x4FF)
  | .cyrillicSupplement => (0x500, 0x52F)
  | .hebrew => (0x590, 0x5FF)
  | .arabic => (0x600, 0x6FF)
  | .devanagari => (0x900, 0x97F)
  | .bengali => (0x980, 0x9FF)
  | .thai => (0xE00, 0xE7F)
  | .hangulJamo => (0x1100, 0x11FF)
  | .latinExtendedAdditional => (0x1E00, 0x1EFF)
  | .greekExtended => (0x1F00, 0x1FFF)
  | .hiragana => (0x3040, 0x309F)
  | .katakana => (0x30A0, 0x30FF)
  | .cjkUnifiedIdeographsExtensionA => (0x3400, 0x4DBF)
  | .cjkUnifiedIdeographs => (0x4E00, 0x9FFF)
  | .hangulSyllables => (0xAC00, 0xD7AF)
  | .cjkCompatibilityIdeographs => (0xF900, 0xFAFF)
  | .arabicPresentationFormsA => (0xFB50, 0xFDFF)

/-- The code point lies in one of the supported ranges. -/
def InSupportedRange (c : Char) : Prop := ∃ s : Script, s.block.1 ≤ c.toNat ∧ c.toNat ≤ s.block.2

theorem inSupportedRange_iff (c : Char) :
    InSupportedRange c ↔ ∃ r ∈ allowedRanges, r.1 ≤ c.toNat ∧ c.toNat ≤ r.2 := by
  constructor
  · rintro ⟨s, h⟩
    exact ⟨s.block, by cases s <;> decide, h⟩
  · rintro ⟨r, hr, h⟩
    have : ∀ r ∈ allowedRanges, ∃ s : Script, s.block = r := by
      simp only [allowedRanges, List.forall_mem_cons]
      exact ⟨⟨.basicLatin, rfl⟩, ⟨.latin1Supplement, rfl⟩, ⟨.latinExtendedA, rfl⟩, ⟨.greekAndCoptic, rfl⟩,
        ⟨.cyrillic, rfl⟩, ⟨.cyrillicSupplement, rfl⟩, ⟨.hebrew, rfl⟩, ⟨.arabic, rfl⟩, ⟨.devanagari, rfl⟩,
        ⟨.bengali, rfl⟩, ⟨.thai, rfl⟩, ⟨.hangulJamo, rfl⟩, ⟨.latinExtendedAdditional, rfl⟩, ⟨.greekExtended, rfl⟩,
        ⟨.hiragana, rfl⟩, ⟨.katakana, rfl⟩, ⟨.cjkUnifiedIdeographsExtensionA, rfl⟩, ⟨.cjkUnifiedIdeographs, rfl⟩,
        ⟨.hangulSyllables, rfl⟩, ⟨.cjkCompatibilityIdeographs, rfl⟩, ⟨.arabicPresentationFormsA, rfl⟩,
        fun _ h => absurd h List.not_mem_nil⟩
    obtain ⟨s, rfl⟩ := this r hr
    exact ⟨s, h⟩

/-- C37, partial: all characters below U+10000 of the canonical form of a stored handle are in the
supported ranges. Missing: characters from U+10000 on, where the claim is false. -/
theorem C37_supported_partial (cfg : Config) (lo hi : Nat) (hr : RangeOk hi) (hist : List Step)
    (hf : Fixed lo hi hist) (m : MsaId) (d : Bytes) (e : BlockNumber) (base : Str) (x : Nat)
    (h : (run cfg .init hist).byMsa.get m = some (d, e)) (hd : (utf8Decode d).bind splitDisplayName = some (base, x))
    (c : Char) (hc : c ∈ canonical cfg base) (hlt : c.toNat < 65536) : InSupportedRange c := by
  have hi' := inv_run hr hist (inv_init cfg lo hi) hf
  have hv := (hi'.parts hr h hd).1
  have := hv.supported
  simp only [supported, List.all_eq_true, List.any_eq_true, Bool.and_eq_true, decide_eq_true_eq] at this
  obtain ⟨r, hr1, hr2⟩ := this c hc
  rw [Nat.mod_eq_of_lt hlt] at hr2
  exact (inSupportedRange_iff c).2 ⟨r, hr1, hr2⟩

/-- Characters outside the ranges are refused, those inside accepted. -/
example : (apply exCfg .init ⟨exEnv 1, .claim 1 1 (pl "abc–d" 50)⟩).byMsa.get 1 = none ∧
    (apply exCfg .init ⟨exEnv 1, .claim 1 1 (pl "приве" 50)⟩).byMsa.get 1 ≠ none := by decide +kernel

/-- C37 is false of the code: code points are truncated to 16 bits before the check, so that the
Linear B syllable U+10041 counts as the letter `A`. -/
theorem C37_truncated_code_points :
    let s := apply exCfg .init ⟨exEnv 1, .claim 1 1 (pl "𐁁𐁁𐁁" 50)⟩
    s.byMsa.get 1 ≠ none ∧ canonical exCfg "𐁁𐁁𐁁".toList = "𐁁𐁁𐁁".toList ∧
    ¬ InSupportedRange '𐁁' := by
  refine ⟨by decide +kernel, by decide +kernel, fun ⟨s, h⟩ => ?_⟩
  have : s.block.2 < 65536 := by cases s <;> decide
  have : '𐁁'.toNat = 65601 := by decide
  omega

/-! ## C38 -/

/-- C38, partial: a handle that a directly submitted claim or retire call removes has expired. Missing:
change calls, see `C38_change_before_expiration`. -/
theorem C38_kept_until_expiration_partial (cfg : Config) (s : State) (x : Step) (m : MsaId) (d : Bytes)
    (e : BlockNumber) (hx : (∃ k sig p, x.op = .claim k sig p) ∨ ∃ k, x.op = .retire k)
    (h : s.byMsa.get m = some (d, e)) (hgone : (apply cfg s x).byMsa.get m ≠ some (d, e)) :
    e ≤ x.env.block := by
  have he := apply_eff cfg s x
  generalize apply cfg s x = s' at he hgone
  cases he with
  | fail er hd => exact absurd h hgone
  | @claim env k sig p m' s1 d' base i y hlen hm hw hsig hc =>
    exfalso
    apply hgone
    have hne : m' ≠ m := by
      rintro rfl
      have := hc.noHandle
      rw [h] at this
      cases this
    show s1.byMsa.get m = _
    rw [hc.state]
    show (s.byMsa.insert m' _).get m = _
    rw [SMap.get_insert_ne _ hne]
    exact h
  | change => rcases hx with ⟨_, _, _, hx⟩ | ⟨_, hx⟩ <;> cases hx
  | @retire env k m' s1 d' base y e' hm hc hexp =>
    by_cases hmm : m' = m
    · subst hmm
      have := hc.stored
      rw [h] at this
      cases this
      exact hexp
    · exfalso
      apply hgone
      show s1.byMsa.get m = _
      rw [hc.state]
      show (s.byMsa.erase m').get m = _
      rw [SMap.get_erase_ne _ hmm]
      exact h
  | retireWrapped => rcases hx with ⟨_, _, _, hx⟩ | ⟨_, hx⟩ <;> cases hx

/-- Hypotheses met: removed in block 60, kept in block 59. -/
example : (apply exCfg exState ⟨exEnv 59, .retire 2⟩).byMsa.get 2 ≠ none ∧
    (apply exCfg exState ⟨exEnv 60, .retire 2⟩).byMsa.get 2 = none := by decide +kernel

/-- C38 is false of the code: a change call replaces a handle long before its expiration. -/
theorem C38_change_before_expiration :
    let s := run exCfg .init [⟨exEnv 1, .claim 1 1 (pl "abcdefg" 100)⟩]
    let s' := apply exCfg s ⟨exEnv 2, .change 1 1 (pl "gfedcba" 50)⟩
    s.byMsa.get 1 = some (displayOf "abcdefg".toList 23, 100) ∧
    s'.byMsa.get 1 = some (displayOf "gfedcba".toList 64, 50) := by
  decide +kernel

/-! ## C72 -/

/-- C72, partial: a stored name that is its own canonical form is not a reserved word. Missing: other
spellings, see `C72_reserved_word_in_disguise`. -/
theorem C72_reserved_partial (cfg : Config) (lo hi : Nat) (hr : RangeOk hi) (hist : List Step)
    (hf : Fixed lo hi hist) (m : MsaId) (d : Bytes) (e : BlockNumber) (base : Str) (x : Nat)
    (h : (run cfg .init hist).byMsa.get m = some (d, e)) (hd : (utf8Decode d).bind splitDisplayName = some (base, x))
    (hc : canonical cfg base = base) : canonical cfg base ∉ reservedWords := by
  rw [hc]
  exact ((inv_run hr hist (inv_init cfg lo hi) hf).parts hr h hd).1.reserved

/-- C72 is false of the code: `Admin` can be claimed, although it has the canonical form of the reserved
word `admin`. -/
theorem C72_reserved_word_in_disguise :
    (apply exCfg .init ⟨exEnv 1, .claim 1 1 (pl "Admin" 50)⟩).byMsa.get 1 ≠ none ∧
    canonical exCfg "Admin".toList = canonical exCfg "admin".toList ∧
    (apply exCfg .init ⟨exEnv 1, .claim 1 1 (pl "admin" 50)⟩).byMsa.get 1 = none := by
  decide +kernel

/-! ## C73 -/

/-- Claims and directly submitted retirements only, in blocks from `b` on in order. -/
def ClaimsAndRetirements : BlockNumber → List Step → Prop
  | _, [] => True
  | b, x :: rest => b ≤ x.env.block ∧ ((∃ k sig p, x.op = .claim k sig p) ∨ ∃ k, x.op = .retire k) ∧
      ClaimsAndRetirements x.env.block rest

/-- C73, partial: after a claim with a payload, no later claim for the same account succeeds with the same
payload, in histories of claims and direct retirements. Missing: change calls, where the claim is
false. -/
theorem C73_claim_once_partial (cfg : Config) (s s' s'' : State) (env env' : Env) (k k' : AccountId)
    (sig sig' : Signature) (p : Payload) (hist : List Step) (m : MsaId)
    (hk : env.msaOf k = some m) (hk' : env'.msaOf k' = some m)
    (h1 : claim cfg env s k sig p = .ok s') (hh : ClaimsAndRetirements env.block hist)
    (hlast : ∀ x ∈ hist, x.env.block ≤ env'.block)
    (h2 : claim cfg env' (run cfg s' hist) k' sig' p = .ok s'') : False := by
  have hclaim : ∀ {env s s' k}, claim cfg env s k sig p = .ok s' → True := fun _ => trivial
  -- expiration stored with the handle
  have hst : ∃ d, s'.byMsa.get m = some (d, p.expiration) := by
    simp only [claim, bind_eq_ok_iff, okOr_eq_ok_iff, pure_eq_ok_iff] at h1
    obtain ⟨_, _, m', hm', _, _, _, _, ⟨s1, d⟩, hc, rfl⟩ := h1
    rw [hk] at hm'
    cases hm'
    obtain ⟨base, i, x, hc⟩ := doClaim_ok hc
    refine ⟨d, ?_⟩
    show s1.byMsa.get m = _
    rw [hc.state]
    exact SMap.get_insert_self _ _ _
  -- the second claim happens before the expiration, with no handle
  have h2' : env'.block < p.expiration ∧ (run cfg s' hist).byMsa.get m = none := by
    simp only [claim, verifyMortality, bind_eq_ok_iff, okOr_eq_ok_iff, pure_eq_ok_iff, ensure_eq_ok_iff] at h2
    obtain ⟨_, _, m', hm', _, ⟨_, _, hlt⟩, _, _, ⟨s1, d⟩, hc, rfl⟩ := h2
    rw [hk'] at hm'
    cases hm'
    obtain ⟨base, i, x, hc⟩ := doClaim_ok hc
    exact ⟨hlt, hc.noHandle⟩
  have key : ∀ (hist : List Step) (b : BlockNumber) (s : State), (∃ d, s.byMsa.get m = some (d, p.expiration)) →
      ClaimsAndRetirements b hist → (∀ x ∈ hist, x.env.block ≤ env'.block) →
      ∃ d, (run cfg s hist).byMsa.get m = some (d, p.expiration) := by
    intro hist
    induction hist with
    | nil => intro b s h _ _; exact h
    | cons x rest ih =>
      intro b s ⟨d, hd⟩ hc hl
      refine ih x.env.block (apply cfg s x) ?_ hc.2.2 (fun y hy => hl y (by simp [hy]))
      refine ⟨d, ?_⟩
      by_contra hgone
      have := C38_kept_until_expiration_partial cfg s x m d p.expiration hc.2.1 hd hgone
      have := hl x (by simp)
      omega
  obtain ⟨d, hd⟩ := key hist env.block s' hst hh hlast
  rw [h2'.2] at hd
  cases hd

/-- Hypotheses met by a history with a retirement of another account; the repeated claim fails. -/
example : (claim exCfg (exEnv 51) exState 3 3 (pl "abcdefg" 100)).isOk = true ∧
    (claim exCfg (exEnv 52) (run exCfg exState [⟨exEnv 51, .claim 3 3 (pl "abcdefg" 100)⟩]) 3 3
      (pl "abcdefg" 100)).isOk = false := by decide +kernel

/-- C73 is false of the code: there is no registry of used handle payloads. The account changes its handle
from the first name to the second; then anybody resubmits the first payload, as a change, and the account
is back at the first name (with a new suffix). -/
theorem C73_replayed_by_change :
    let first := pl "abcdefg" 90
    let s := run exCfg .init [⟨exEnv 1, .claim 1 1 first⟩, ⟨exEnv 2, .change 1 1 (pl "gfedcba" 95)⟩,
      ⟨exEnv 3, .change 1 1 first⟩]
    s.byMsa.get 1 = some (displayOf "abcdefg".toList 65, 90) := by
  decide +kernel

end Verif.Handles
