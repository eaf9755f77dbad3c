import Verif.Rpc.Lemmas
import Verif.Messages.PropsPages
import Verif.Handles.Suffix
/-!
# What the answers of the RPC methods tell (C121)

An answer is a JSON text. The claim is that the text is within the grammar (RFC 8259, Json/Grammar.lean), and that
whoever reads it, by the grammar and the types of common/primitives, has exactly what the runtime returned.
-/

namespace Verif.Rpc

open Verif.Json

/-- The text is JSON, and reading it gives `a`. -/
def Tells {α : Type} (read : Value → Option α) (t : Bytes) (a : α) : Prop :=
  (∃ v, Doc (fun _ => true) 127 t v) ∧ ∀ v, Doc (fun _ => true) 127 t v → read v = some a

theorem tells_of {α : Type} {read : Value → Option α} {v : Value} {a : α} (hg : Good 127 v) (hr : read v = some a) :
    Tells read (print v) a :=
  ⟨⟨v, hg⟩, fun w hw => by rw [reading hg hw]; exact hr⟩

/-! ## Messages -/

/-- The numbers of a message are within their types in the code, messages.rs 15-47. -/
structure MessageFits (r : Messages.Response) : Prop where
  provider : r.provider < 2 ^ 64
  index : r.index < 2 ^ 16
  block : r.block < 2 ^ 32
  author : ∀ m ∈ r.author, m < 2 ^ 64
  length : ∀ n ∈ r.length, n < 2 ^ 32

theorem readOption_nat {bound n : Nat} (h : n < bound) : readOption (readNat bound) (writeNat n) = some (some n) := by
  have := readNat_writeNat h
  unfold writeNat at this ⊢
  simp only [readOption, this, Option.map_some]

theorem readMessage_write {r : Messages.Response} {v : Value} (hf : MessageFits r) (hc : r.cid ≠ some [])
    (h : writeMessage r = some v) : readMessage v = some r := by
  obtain ⟨provider, index, block, author, payload, cid, length⟩ := r
  have h1 := readNat_writeNat hf.provider
  have h2 := readNat_writeNat hf.index
  have h3 := readNat_writeNat hf.block
  have h4 : ∀ m ∈ author, _ := fun m hm => readOption_nat (hf.author m hm)
  have h5 : ∀ m ∈ length, _ := fun m hm => readOption_nat (hf.length m hm)
  dsimp only at h1 h2 h3 hc
  unfold writeMessage at h
  obtain ⟨w, hw, h⟩ := Option.bind_eq_some_iff.1 h
  cases h
  cases cid with
  | none =>
    cases hw
    unfold readMessage
    cases author <;> cases payload <;> cases length <;>
      simp [-Nat.reducePow, members_object, field_enc, fieldOr_enc, find, skipNone, h1, h2, h3, readHex_writeHex, h4, h5]
  | some c =>
    obtain ⟨x, hx, rfl⟩ := Option.map_eq_some_iff.1 hw
    obtain ⟨rfl, _⟩ := writeText_some hx
    have hc : c ≠ [] := fun he => hc (by rw [he])
    unfold readMessage
    cases author <;> cases payload <;> cases length <;>
      simp [-Nat.reducePow, members_object, field_enc, fieldOr_enc, find, skipNone, h1, h2, h3, readHex_writeHex, h4, h5,
        readTextOption, hc]

/-- A sixteen-bit or wider number, hexadecimal text, and so on: the parts of objects are written as JSON. -/
theorem good_skip {k : Nat} {n : String} {o : Option Value} (h : ∀ v ∈ o, Good k v) : ∀ p ∈ skipNone n o, Good k p.2 := by
  cases o with
  | none => intro p hp; cases hp
  | some v =>
    intro p hp
    rw [List.mem_singleton.1 hp]
    exact h v rfl

theorem good_message (k : Nat) {r : Messages.Response} {v : Value} (h : writeMessage r = some v) : Good (k + 1) v := by
  unfold writeMessage at h
  obtain ⟨c, hc, h⟩ := Option.bind_eq_some_iff.1 h
  cases h
  apply good_object
  have hcid : ∀ v ∈ c, Good k v := by
    cases hr : r.cid with
    | none => rw [hr] at hc; cases hc; intro v hv; cases hv
    | some b =>
      rw [hr] at hc
      obtain ⟨w, hw, rfl⟩ := Option.map_eq_some_iff.1 hc
      intro v hv
      cases hv
      exact good_text k hw
  have hnat : ∀ o : Option Nat, ∀ v ∈ o.map writeNat, Good k v := by
    intro o v hv
    obtain ⟨n, _, rfl⟩ := Option.map_eq_some_iff.1 hv
    exact good_nat k n
  have hhex : ∀ o : Option Bytes, ∀ v ∈ o.map writeHex, Good k v := by
    intro o v hv
    obtain ⟨n, _, rfl⟩ := Option.map_eq_some_iff.1 hv
    exact good_hex k n
  intro p hp
  simp only [List.mem_append, List.mem_cons, List.not_mem_nil, or_false] at hp
  rcases hp with (((hp | hp) | hp) | hp) | hp
  · rcases hp with rfl | rfl | rfl <;> exact good_nat k _
  · exact good_skip (hnat _) p hp
  · exact good_skip (hhex _) p hp
  · exact good_skip hcid p hp
  · exact good_skip (hnat _) p hp

/-- The numbers of a page of messages are within their types. -/
structure PageFits (p : Messages.Page Messages.Response) : Prop where
  content : ∀ r ∈ p.content, MessageFits r
  block : ∀ n ∈ p.next, n.1 < 2 ^ 32
  index : ∀ n ∈ p.next, n.2 < 2 ^ 32

theorem readPage_write {p : Messages.Page Messages.Response} {v : Value} (hf : PageFits p)
    (hc : ∀ r ∈ p.content, r.cid ≠ some []) (h : writePage p = some v) : readPage v = some p := by
  obtain ⟨content, hasNext, next⟩ := p
  unfold writePage at h
  obtain ⟨c, hw, h⟩ := Option.bind_eq_some_iff.1 h
  cases h
  have h1 : c.mapM readMessage = some content :=
    mapM_back hw (fun r hr b hb => readMessage_write (hf.content r hr) (hc r hr) hb)
  have h2 : ∀ n ∈ next, _ := fun n hn => readOption_nat (hf.block n hn)
  have h3 : ∀ n ∈ next, _ := fun n hn => readOption_nat (hf.index n hn)
  unfold readPage
  cases next <;>
    simp [-Nat.reducePow, members_object, field_enc, fieldOr_enc, find, skipNone, readList, readBool, h1, h2, h3]

theorem good_page (k : Nat) {p : Messages.Page Messages.Response} {v : Value} (h : writePage p = some v) :
    Good (k + 3) v := by
  unfold writePage at h
  obtain ⟨c, hw, h⟩ := Option.bind_eq_some_iff.1 h
  cases h
  apply good_object
  have hnat : ∀ f : BlockNumber × Nat → Nat, ∀ v ∈ p.next.map (fun n => writeNat (f n)), Good (k + 2) v := by
    intro f v hv
    obtain ⟨n, _, rfl⟩ := Option.map_eq_some_iff.1 hv
    exact good_nat _ _
  intro q hq
  simp only [List.mem_append, List.mem_cons, List.not_mem_nil, or_false] at hq
  rcases hq with (hq | hq) | hq
  · rcases hq with rfl | rfl
    · apply good_arr
      intro w hm
      obtain ⟨r, _, hr⟩ := (mapM_some hw).2 w hm
      exact good_message k hr
    · exact good_bool _ _
  · exact good_skip (hnat (fun n => n.1)) q hq
  · exact good_skip (hnat (fun n => n.2)) q hq

/-- Messages are always written: a content identifier in an answer is ASCII. -/
theorem base32_utf8 (b : Bytes) : ∃ s : Str, utf8Encode s = Base32.encode b := by
  have hs : ∀ n, n < 32 → String.utf8EncodeChar (Char.ofNat (Base32.symbol n).toNat) = [Base32.symbol n] := by
    intro n hn
    have : ∀ m : Fin 32, String.utf8EncodeChar (Char.ofNat (Base32.symbol m.val).toNat) = [Base32.symbol m.val] := by
      decide
    exact this ⟨n, hn⟩
  have : ∀ l : List Nat, (∀ n ∈ l, n < 32) → ∃ s : Str, utf8Encode s = l.map Base32.symbol := by
    intro l
    induction l with
    | nil => intro _; exact ⟨[], rfl⟩
    | cons n l ih =>
      intro h
      obtain ⟨s, hl⟩ := ih (fun m hm => h m (List.mem_cons_of_mem _ hm))
      exact ⟨Char.ofNat (Base32.symbol n).toNat :: s, by rw [utf8Encode_cons, hs n (h n (by simp)), hl]; rfl⟩
  obtain ⟨s, h⟩ := this _ (Base32.chunks5_lt (Base32.toBits b))
  exact ⟨'b' :: s, by rw [utf8Encode_cons, h]; rfl⟩

theorem mem_rest {α : Type} {chain : BlockNumber → List α} {x : α} (n : Nat) : ∀ (b i : Nat),
    x ∈ Messages.rest chain n b i → ∃ c, x ∈ chain c := by
  induction n with
  | zero => intro b i h; simp [Messages.rest] at h
  | succ n ih =>
    intro b i h
    simp only [Messages.rest, List.mem_append] at h
    rcases h with h | h
    · exact ⟨b, List.mem_of_mem_drop h⟩
    · exact ih _ _ h

theorem mem_page {α : Type} {chain : BlockNumber → List α} {r : Messages.Request} {p : Messages.Page α} {x : α}
    (h : Messages.getPage chain r = some p) (hx : x ∈ p.content) : ∃ b, x ∈ chain b := by
  have hv : r.valid = true := by
    unfold Messages.getPage at h
    split at h
    · assumption
    · cases h
  obtain ⟨q, hq, hc⟩ := Messages.page_spec chain r hv
  rw [h] at hq
  cases hq
  have : x ∈ Messages.wanted chain r := by
    rcases hc with ⟨_, hc, _⟩ | ⟨b, i, _, _, _, _, hc⟩
    · rw [← hc]; exact hx
    · rw [hc]; exact List.mem_append_left _ hx
  rw [Messages.wanted_eq] at this
  exact mem_rest _ _ _ this

theorem response_of_mem {s : Messages.State} {schema : SchemaId} {loc : Schemas.Location} {b : BlockNumber}
    {r : Messages.Response} (h : r ∈ Messages.getMessages s schema loc b) :
    ∃ m i, r = Messages.toResponse m b loc i := by
  unfold Messages.getMessages at h
  split at h
  · cases h
  · cases h
  · rw [List.mem_mergeSort] at h
    obtain ⟨e, _, rfl⟩ := List.mem_map.1 h
    exact ⟨_, _, rfl⟩

theorem response_writes (m : Messages.Msg) (b : BlockNumber) (loc : Schemas.Location) (i : Nat) :
    (Messages.toResponse m b loc i).cid ≠ some [] ∧ ∃ v, writeMessage (Messages.toResponse m b loc i) = some v := by
  cases loc with
  | ipfs =>
    obtain ⟨s, hs⟩ := base32_utf8 (Messages.decodeOffchain m.payload).1
    refine ⟨by simp [Messages.toResponse, Base32.encode], ?_⟩
    simp only [Messages.toResponse, writeMessage, writeTextOption, ← hs, writeText_utf8]
    exact ⟨_, rfl⟩
  | onChain => exact ⟨by simp [Messages.toResponse], ⟨_, rfl⟩⟩
  | itemized => exact ⟨by simp [Messages.toResponse], ⟨_, rfl⟩⟩
  | paginated => exact ⟨by simp [Messages.toResponse], ⟨_, rfl⟩⟩

/-- C121, messages: for every state, schema, location and valid request, the page that the query returns is answered
with a text, and the text tells the page. -/
theorem C121_messages (s : Messages.State) (schema : SchemaId) (loc : Schemas.Location) (r : Messages.Request)
    (p : Messages.Page Messages.Response) (h : Messages.getPage (Messages.getMessages s schema loc) r = some p)
    (hf : PageFits p) : ∃ t, messagesBySchemaId s schema loc r = some t ∧ Tells readPage t p := by
  have hm : ∀ q ∈ p.content, q.cid ≠ some [] ∧ ∃ v, writeMessage q = some v := by
    intro q hq
    obtain ⟨b, hb⟩ := mem_page h hq
    obtain ⟨m, i, rfl⟩ := response_of_mem hb
    exact response_writes m b loc i
  obtain ⟨l, hl⟩ := mapM_all (fun q hq => (hm q hq).2)
  have hw : ∃ v, writePage p = some v := by
    unfold writePage
    rw [hl]
    exact ⟨_, rfl⟩
  obtain ⟨v, hv⟩ := hw
  refine ⟨print v, by simp [messagesBySchemaId, h, hv], ?_⟩
  exact tells_of (good_page 124 hv) (readPage_write hf (fun q hq => (hm q hq).1) hv)

/-! ## Stateful storage -/

/-- The numbers are within their types in the code, stateful_storage.rs 22-36. -/
structure PaginatedFits (r : PaginatedResponse) : Prop where
  pageId : r.pageId < 2 ^ 16
  msa : r.msa < 2 ^ 64
  schema : r.schema < 2 ^ 16
  hash : r.hash < 2 ^ 32
  nonce : r.nonce < 2 ^ 16

theorem readPaginated_write {r : PaginatedResponse} (hf : PaginatedFits r) : readPaginated (writePaginated r) = some r := by
  have h1 := readNat_writeNat hf.pageId
  have h2 := readNat_writeNat hf.msa
  have h3 := readNat_writeNat hf.schema
  have h4 := readNat_writeNat hf.hash
  have h5 := readNat_writeNat hf.nonce
  unfold readPaginated writePaginated
  simp [-Nat.reducePow, members_object, field_enc, fieldOr_enc, find, h1, h2, h3, h4, h5, readHex_writeHex]

theorem good_paginated (k : Nat) (r : PaginatedResponse) : Good (k + 1) (writePaginated r) := by
  apply good_object
  intro p hp
  simp only [List.mem_cons, List.not_mem_nil, or_false] at hp
  rcases hp with rfl | rfl | rfl | rfl | rfl | rfl <;> first | exact good_nat k _ | exact good_hex k _

/-- The pages of an answer: identifier, owner, schema, hash, nonce and data. -/
def pagesOf (cfg : Stateful.Config) (m : MsaId) (s : SchemaId) (l : List (Nat × Stateful.Page)) : List PaginatedResponse :=
  l.map (fun p => ⟨p.1, m, s, p.2.getHash cfg.hash, p.2.nonce, p.2.data⟩)

/-- C121, paginated storage: the text tells the identifier, hash, nonce and data of every page. -/
theorem C121_pages (cfg : Stateful.Config) (env : Stateful.Env) (st : Stateful.Store) (m : MsaId) (s : SchemaId)
    (l : List (Nat × Stateful.Page)) (h : Stateful.getPaginatedStorage cfg env st m s = .ok l)
    (hf : ∀ r ∈ pagesOf cfg m s l, PaginatedFits r) :
    ∃ t, paginatedStorage cfg env st m s = some t ∧ Tells (readList readPaginated) t (pagesOf cfg m s l) := by
  refine ⟨_, by simp only [paginatedStorage, h]; rfl, tells_of ?_ ?_⟩
  · apply good_arr (k := 126)
    intro v hv
    obtain ⟨p, _, rfl⟩ := List.mem_map.1 hv
    exact good_paginated 125 _
  · have := mapM_write (fun r hr => readPaginated_write (hf r hr))
    unfold pagesOf at this
    rw [List.map_map] at this
    exact this

/-- The numbers are within their types in the code, stateful_storage.rs 41-63. -/
structure ItemizedFits (r : ItemizedResponse) : Prop where
  msa : r.msa < 2 ^ 64
  schema : r.schema < 2 ^ 16
  hash : r.hash < 2 ^ 32
  nonce : r.nonce < 2 ^ 16
  items : ∀ i ∈ r.items, i.1 < 2 ^ 16

theorem readItem_write {i : Nat × Bytes} (h : i.1 < 2 ^ 16) : readItem (writeItem i) = some i := by
  have h1 := readNat_writeNat h
  unfold readItem writeItem
  simp [-Nat.reducePow, members_object, field_enc, fieldOr_enc, find, h1, readHex_writeHex]

theorem good_item (k : Nat) (i : Nat × Bytes) : Good (k + 1) (writeItem i) := by
  apply good_object
  intro p hp
  simp only [List.mem_cons, List.not_mem_nil, or_false] at hp
  rcases hp with rfl | rfl <;> first | exact good_nat k _ | exact good_hex k _

theorem readItemized_write {r : ItemizedResponse} (hf : ItemizedFits r) : readItemized (writeItemized r) = some r := by
  have h1 := readNat_writeNat hf.msa
  have h2 := readNat_writeNat hf.schema
  have h3 := readNat_writeNat hf.hash
  have h4 := readNat_writeNat hf.nonce
  have h5 := mapM_write (fun i hi => readItem_write (hf.items i hi))
  unfold readItemized writeItemized
  simp [-Nat.reducePow, -List.mapM_map, members_object, field_enc, find, h1, h2, h3, h4, h5, readList]

/-- C121, itemized storage: the text tells the hash, the nonce, and every item with its index. -/
theorem C121_items (cfg : Stateful.Config) (env : Stateful.Env) (st : Stateful.Store) (m : MsaId) (s : SchemaId)
    (r : Stateful.ItemizedResponse) (h : Stateful.getItemizedStorage cfg env st m s = .ok r)
    (hf : ItemizedFits ⟨m, s, r.hash, r.nonce, r.items⟩) :
    ∃ t, itemizedStorage cfg env st m s = some t ∧ Tells readItemized t ⟨m, s, r.hash, r.nonce, r.items⟩ := by
  refine ⟨_, by simp only [itemizedStorage, h], tells_of ?_ (readItemized_write hf)⟩
  apply good_object (k := 126)
  intro p hp
  simp only [List.mem_cons, List.not_mem_nil, or_false] at hp
  rcases hp with rfl | rfl | rfl | rfl | rfl
  · exact good_nat _ _
  · exact good_nat _ _
  · exact good_nat _ _
  · exact good_nat _ _
  · apply good_arr (k := 125)
    intro v hv
    obtain ⟨i, _, rfl⟩ := List.mem_map.1 hv
    exact good_item 124 i

/-- C121, stateful storage: there is a text just if the runtime returned pages or items; an error of the runtime is an
error of the query, never an empty list. -/
theorem C121_storage_errors (cfg : Stateful.Config) (env : Stateful.Env) (st : Stateful.Store) (m : MsaId)
    (s : SchemaId) :
    ((∃ t, paginatedStorage cfg env st m s = some t) ↔ ∃ l, Stateful.getPaginatedStorage cfg env st m s = .ok l) ∧
    ((∃ t, itemizedStorage cfg env st m s = some t) ↔ ∃ r, Stateful.getItemizedStorage cfg env st m s = .ok r) := by
  unfold paginatedStorage itemizedStorage
  constructor
  · cases Stateful.getPaginatedStorage cfg env st m s <;> simp
  · cases Stateful.getItemizedStorage cfg env st m s <;> simp

/-! ## Handles -/

theorem readOption_object {α : Type} {read : Value → Option α} {v : Value} {a : α} (hv : v ≠ .null)
    (h : read v = some a) : readOption read v = some (some a) := by
  unfold readOption
  split
  · exact absurd rfl hv
  · rw [h]; rfl

theorem tells_null {α : Type} (read : Value → Option α) : Tells (readOption read) (print .null) none :=
  tells_of (good_null 127) rfl

/-- C121, handles: for every state, the query for the handle of an account is answered with a text that tells whether
there is one, and its name, canonical form and suffix. -/
theorem C121_handle (cfg : Handles.Config) (s : Handles.State) (m : MsaId) :
    ∃ t, handleForMsa cfg s m = some t ∧ Tells (readOption readHandle) t (Handles.handleForMsa cfg s m) := by
  unfold handleForMsa
  cases h : Handles.handleForMsa cfg s m with
  | none => exact ⟨_, rfl, tells_null _⟩
  | some r =>
    simp only
    unfold Handles.handleForMsa at h
    obtain ⟨d, _, h⟩ := Option.bind_eq_some_iff.1 h
    obtain ⟨str, _, h⟩ := Option.bind_eq_some_iff.1 h
    obtain ⟨parts, hp, h⟩ := Option.bind_eq_some_iff.1 h
    have hx : parts.2 < 2 ^ 16 := by
      unfold Handles.splitDisplayName at hp
      split at hp
      · obtain ⟨n, hn, rfl⟩ := Option.map_eq_some_iff.1 hp
        unfold Handles.parseU16 at hn
        dsimp only at hn
        split at hn
        · cases hn
          show _ < 65536
          omega
        · cases hn
      · cases hp
    obtain ⟨c, hc⟩ : ∃ c : Str, (Handles.canonicalBase cfg parts.1).2 = utf8Encode c := by
      unfold Handles.canonicalBase
      simp only
      split
      · exact ⟨_, rfl⟩
      · exact ⟨[], rfl⟩
    cases h
    have hw : writeHandle (utf8Encode parts.1, (Handles.canonicalBase cfg parts.1).2, parts.2) = some (object
        [("base_handle", .str (utf8Encode parts.1)), ("canonical_base", .str (utf8Encode c)),
          ("suffix", writeNat parts.2)]) := by
      rw [hc]
      simp only [writeHandle, writeText_utf8]
      rfl
    rw [hw]
    refine ⟨_, rfl, tells_of ?_ (readOption_object (by simp [object]) ?_)⟩
    · apply good_object (k := 126)
      intro p hp
      simp only [List.mem_cons, List.not_mem_nil, or_false] at hp
      rcases hp with rfl | rfl | rfl <;> first | exact good_str _ _ | exact good_nat _ _
    · rw [hc]
      have := readNat_writeNat hx
      simp [-Nat.reducePow, readHandle, members_object, field_enc, find, this, readText]

theorem mem_collect {x : Nat} {start count : Nat} (l : List (Nat × Nat)) : ∀ acc : List Nat,
    x ∈ Handles.collectSuffixes start count l acc → x ∈ acc ∨ ∃ i, (i, x) ∈ l := by
  induction l with
  | nil => intro acc h; exact .inl h
  | cons p l ih =>
    intro acc h
    obtain ⟨i, y⟩ := p
    have step : x ∈ (if start ≤ i ∧ i < start + count then acc ++ [y] else acc) → x ∈ acc ∨ x = y := by
      intro hx
      split at hx
      · simpa using hx
      · exact .inl hx
    unfold Handles.collectSuffixes at h
    simp only at h
    generalize (if start ≤ i ∧ i < start + count then acc ++ [y] else acc) = acc' at h step
    split at h
    · rcases step h with h | rfl
      · exact .inl h
      · exact .inr ⟨i, by simp⟩
    · rcases ih _ h with h | ⟨j, h⟩
      · rcases step h with h | rfl
        · exact .inl h
        · exact .inr ⟨i, by simp⟩
      · exact .inr ⟨j, List.mem_cons_of_mem _ h⟩

theorem mem_enumFrom {i x : Nat} (l : List Nat) : ∀ n, (i, x) ∈ Handles.enumFrom n l → x ∈ l := by
  induction l with
  | nil => intro n h; cases h
  | cons y l ih =>
    intro n h
    rcases List.mem_cons.1 h with h | h
    · cases h; simp
    · exact List.mem_cons_of_mem _ (ih _ h)

/-- C121, suffixes: for every state, every name of at most 32 bytes and every count, the answer tells the name and the
suffixes, as many as asked for but at most 100, and one if no number was given. Suffixes are of 16 bits. -/
theorem C121_suffixes (cfg : Handles.Config) (env : Handles.Env) (s : Handles.State) (base : Str) (count : Option Nat)
    (hb : (utf8Encode base).length ≤ 32) (hhi : env.hi < 2 ^ 16) :
    ∃ t, nextSuffixes cfg env s base count = some t ∧
      Tells readSuffixes t
        (utf8Encode base, Handles.nextSuffixes cfg env s (utf8Encode base) (min (count.getD 1) 100)) := by
  unfold nextSuffixes
  rw [if_pos hb]
  generalize hl : Handles.nextSuffixes cfg env s (utf8Encode base) (min (count.getD 1) 100) = l
  have hx : ∀ x ∈ l, x < 2 ^ 16 := by
    intro x hx
    rw [← hl] at hx
    unfold Handles.nextSuffixes at hx
    rcases mem_collect _ _ hx with hx | ⟨i, hx⟩
    · cases hx
    · have := (Handles.mem_uniqueSuffixes _ _ _ _).1 (mem_enumFrom _ _ hx)
      omega
  have hr : (l.map writeNat).mapM (readNat (2 ^ 16)) = some l := mapM_write (fun x h => readNat_writeNat (hx x h))
  have hw : writeSuffixes (utf8Encode base, l) = some (object
      [("base_handle", .str (utf8Encode base)), ("suffixes", .arr (l.map writeNat))]) := by
    simp only [writeSuffixes, writeText_utf8]
    rfl
  rw [hw]
  refine ⟨_, rfl, tells_of ?_ ?_⟩
  · apply good_object (k := 126)
    intro p hp
    simp only [List.mem_cons, List.not_mem_nil, or_false] at hp
    rcases hp with rfl | rfl
    · exact good_str _ _
    · apply good_arr (k := 125)
      intro v hv
      obtain ⟨n, _, rfl⟩ := List.mem_map.1 hv
      exact good_nat _ _
  · simp [-Nat.reducePow, -List.mapM_map, readSuffixes, members_object, field_enc, find, readText, readList, hr]

/-! ## Schemas -/

theorem read_modelType (m : Schemas.ModelType) : readModelType (writeModelType m) = some m := by cases m <;> decide

theorem read_location (l : Schemas.Location) : readLocation (writeLocation l) = some l := by cases l <;> decide

theorem read_setting (x : Schemas.Setting) : readSetting (writeSetting x) = some x := by cases x <;> decide

/-- C121, schemas: whatever answer there is to the query for a schema tells whether the schema is registered, and its
model, type, location and settings. -/
theorem C121_schema (s : Schemas.State) (id : SchemaId) (t : Bytes) (hid : id < 2 ^ 16) (h : schemaById s id = some t) :
    Tells (readOption readSchema) t (Schemas.getSchemaById s id) := by
  unfold schemaById at h
  cases hq : Schemas.getSchemaById s id with
  | none => rw [hq] at h; cases h; exact tells_null _
  | some r =>
    rw [hq] at h
    obtain ⟨v, hv, rfl⟩ := Option.map_eq_some_iff.1 h
    have hr : r.id < 2 ^ 16 := by
      unfold Schemas.getSchemaById at hq
      split at hq
      · cases hq; exact hid
      · cases hq
    unfold writeSchema at hv
    obtain ⟨w, hw, hv⟩ := Option.bind_eq_some_iff.1 hv
    cases hv
    obtain ⟨rfl, str, hstr⟩ := writeText_some hw
    refine tells_of ?_ (readOption_object (by simp [object]) ?_)
    · apply good_object (k := 126)
      intro p hp
      simp only [List.mem_cons, List.not_mem_nil, or_false] at hp
      rcases hp with rfl | rfl | rfl | rfl | rfl
      · exact good_nat _ _
      · exact good_text _ hw
      · cases r.modelType <;> exact good_str _ _
      · cases r.location <;> exact good_str _ _
      · apply good_arr (k := 125)
        intro v hv
        obtain ⟨x, _, rfl⟩ := List.mem_map.1 hv
        cases x <;> exact good_str _ _
    · have h1 := readNat_writeNat hr
      have h2 : (r.settings.map writeSetting).mapM readSetting = some r.settings := mapM_write (fun x _ => read_setting x)
      simp [-Nat.reducePow, -List.mapM_map, readSchema, members_object, field_enc, find, readText, readList, h1, h2,
        read_modelType, read_location]

/-- The versions of an answer are within their types in the code, schema.rs 139-149. -/
def VersionFits (r : Schemas.VersionResponse) : Prop := r.version < 2 ^ 8 ∧ r.id < 2 ^ 16

/-- C121, versions: whatever answer there is to the query for a name tells every name, version and schema. -/
theorem C121_versions (s : Schemas.State) (name : Str) (t : Bytes)
    (hf : ∀ l ∈ Schemas.getSchemaVersions s (utf8Encode name), ∀ r ∈ l, VersionFits r)
    (h : schemaVersions s name = some t) :
    Tells (readOption (readList readVersion)) t (Schemas.getSchemaVersions s (utf8Encode name)) := by
  unfold schemaVersions at h
  cases hq : Schemas.getSchemaVersions s (utf8Encode name) with
  | none => rw [hq] at h; cases h; exact tells_null _
  | some l =>
    rw [hq] at h
    obtain ⟨vs, hvs, rfl⟩ := Option.map_eq_some_iff.1 h
    have key : ∀ r v, writeVersion r = some v → Good 126 v ∧ (VersionFits r → readVersion v = some r) := by
      intro r v hv
      unfold writeVersion at hv
      obtain ⟨w, hw, hv⟩ := Option.bind_eq_some_iff.1 hv
      cases hv
      obtain ⟨rfl, str, hstr⟩ := writeText_some hw
      constructor
      · apply good_object (k := 125)
        intro p hp
        simp only [List.mem_cons, List.not_mem_nil, or_false] at hp
        rcases hp with rfl | rfl | rfl
        · exact good_text _ hw
        · exact good_nat _ _
        · exact good_nat _ _
      · intro hr
        have h1 := readNat_writeNat hr.1
        have h2 := readNat_writeNat hr.2
        simp [-Nat.reducePow, readVersion, members_object, field_enc, find, readText, h1, h2]
    refine tells_of ?_ (readOption_object (by simp) ?_)
    · apply good_arr (k := 126)
      intro v hv
      obtain ⟨r, _, hr⟩ := (mapM_some hvs).2 v hv
      exact (key r v hr).1
    · exact mapM_back hvs (fun r hr v hv => (key r v hv).2 (hf l hq r hr))

/-! ## Delegations -/

/-- C121, grants: for every state, the answer to the query for the grants of a delegation tells every schema and the
block of its revocation, or that the query failed. -/
theorem C121_grants (s : Msa.State) (delegator provider : MsaId)
    (hf : ∀ l, Msa.getGrantedSchemas s delegator provider = .ok l → ∀ g ∈ l, g.1 < 2 ^ 16 ∧ g.2 < 2 ^ 32) :
    Tells (readOption (readList readGrant)) (grantedSchemas s delegator provider)
      (match Msa.getGrantedSchemas s delegator provider with
        | .ok l => some l
        | .error _ => none) := by
  unfold grantedSchemas
  cases hq : Msa.getGrantedSchemas s delegator provider with
  | error e => exact tells_null _
  | ok l =>
    simp only
    refine tells_of ?_ (readOption_object (by simp) ?_)
    · apply good_arr (k := 126)
      intro v hv
      obtain ⟨g, _, rfl⟩ := List.mem_map.1 hv
      apply good_object (k := 125)
      intro p hp
      simp only [List.mem_cons, List.not_mem_nil, or_false] at hp
      rcases hp with rfl | rfl <;> exact good_nat _ _
    · apply mapM_write
      intro g hg
      have h1 := readNat_writeNat (hf l hq g hg).1
      have h2 := readNat_writeNat (hf l hq g hg).2
      simp [-Nat.reducePow, readGrant, writeGrant, members_object, field_enc, find, h1, h2]

/-! ## Events -/

/-- What an answer is to tell of a record: the extrinsic it belongs to, if any, and the whole encoding of the event, in
the three parts pallet, event and data. -/
def ToldOf (r : Phase × Bytes) (e : Event) : Prop :=
  (∀ i, r.1 = .applyExtrinsic i ↔ e.phase = some i) ∧ r.2 = UInt8.ofNat e.pallet :: UInt8.ofNat e.event :: e.data

/-- C121, events: for every list of records of which each has a pallet and an event, the answer tells, in order, of every
record the extrinsic and all bytes of the event. -/
theorem C121_events (records : List (Phase × Bytes)) (hl : ∀ r ∈ records, 2 ≤ r.2.length)
    (hp : ∀ r ∈ records, ∀ i, r.1 = .applyExtrinsic i → i < 2 ^ 32) :
    ∃ t l, events records = some t ∧ Tells (readList readEvent) t l ∧ List.Forall₂ ToldOf records l := by
  have hone : ∀ r ∈ records, ∃ e, ofRecord r.1 r.2 = some e ∧ ToldOf r e ∧ readEvent (writeEvent e) = some e := by
    rintro ⟨ph, b⟩ hr
    match b, hl _ hr with
    | p :: e :: data, _ =>
      have h1 := readNat_writeNat (bound := 2 ^ 8) p.toNat_lt
      have h2 := readNat_writeNat (bound := 2 ^ 8) e.toNat_lt
      cases ph with
      | applyExtrinsic i =>
        have h3 := readOption_nat (hp _ hr i rfl)
        refine ⟨_, rfl, ⟨by simp, by simp⟩, ?_⟩
        simp [-Nat.reducePow, readEvent, writeEvent, members_object, field_enc, fieldOr_enc, find, h1, h2, h3,
          writeOption, readHex_writeHex]
      | finalization =>
        refine ⟨_, rfl, ⟨by simp, by simp⟩, ?_⟩
        simp [-Nat.reducePow, readEvent, writeEvent, members_object, field_enc, fieldOr_enc, find, h1, h2,
          writeOption, readOption, readHex_writeHex]
      | initialization =>
        refine ⟨_, rfl, ⟨by simp, by simp⟩, ?_⟩
        simp [-Nat.reducePow, readEvent, writeEvent, members_object, field_enc, fieldOr_enc, find, h1, h2,
          writeOption, readOption, readHex_writeHex]
  have hall : ∃ l, records.mapM (fun r => ofRecord r.1 r.2) = some l ∧ List.Forall₂ ToldOf records l ∧
      ∀ e ∈ l, readEvent (writeEvent e) = some e := by
    clear hl hp
    induction records with
    | nil => exact ⟨[], rfl, .nil, by simp⟩
    | cons r records ih =>
      obtain ⟨e, he, ht, hr⟩ := hone r (by simp)
      obtain ⟨l, h1, h2, h3⟩ := ih (fun q hq => hone q (List.mem_cons_of_mem _ hq))
      refine ⟨e :: l, by rw [List.mapM_cons, he, h1]; rfl, .cons ht h2, ?_⟩
      intro x hx
      rcases List.mem_cons.1 hx with rfl | hx
      · exact hr
      · exact h3 x hx
  obtain ⟨l, h1, h2, h3⟩ := hall
  refine ⟨print (.arr (l.map writeEvent)), l, by simp only [events, h1, Option.map_some],
    tells_of (v := .arr (l.map writeEvent)) ?_ (mapM_write h3), h2⟩
  apply good_arr (k := 126)
  intro v hv
  obtain ⟨e, _, rfl⟩ := List.mem_map.1 hv
  apply good_object (k := 125)
  intro p hp
  simp only [List.mem_cons, List.not_mem_nil, or_false] at hp
  rcases hp with rfl | rfl | rfl | rfl
  · cases he : e.phase with
    | none => exact good_null _
    | some i => exact good_nat _ _
  · exact good_nat _ _
  · exact good_nat _ _
  · exact good_hex _ _

/-! ## Cases -/

/-- The text of an answer with a message on the chain: an empty payload is not left out. -/
example : (writeMessage ⟨7, 0, 12, some 3, some [], none, none⟩).map print =
    some (lit "{\"provider_msa_id\":7,\"index\":0,\"block_number\":12,\"msa_id\":3,\"payload\":\"0x\"}") := by
  decide +kernel

/-- The text of an answer with a page. -/
example : print (writePaginated ⟨2, 10, 1, 4000000000, 1, [0, 255, 16]⟩) =
    lit "{\"page_id\":2,\"msa_id\":10,\"schema_id\":1,\"content_hash\":4000000000,\"nonce\":1,\"payload\":\"0x00ff10\"}" := by
  decide +kernel

/-- The text of an answer with an event. -/
example : events [(.applyExtrinsic 1, [60, 0, 5]), (.initialization, [0, 0])] =
    some (lit ("[{\"phase\":1,\"pallet\":60,\"event\":0,\"data\":\"0x05\"}," ++
      "{\"phase\":null,\"pallet\":0,\"event\":0,\"data\":\"0x\"}]")) := by decide +kernel

/-- The text of an answer with a schema: quotation marks in the model are escaped. -/
example : (writeSchema ⟨1, lit "{\"a\":1}", .avroBinary, .itemized, [.appendOnly]⟩).map print =
    some (lit ("{\"schema_id\":1,\"model\":\"{\\\"a\\\":1}\",\"model_type\":\"AvroBinary\"," ++
      "\"payload_location\":\"Itemized\",\"settings\":[\"AppendOnly\"]}")) := by decide +kernel

/-- A case within the hypotheses of `C121_messages`. -/
example : MessageFits ⟨7, 0, 12, some 3, some [1, 2], none, none⟩ :=
  ⟨by decide, by decide, by decide, by simp, by simp⟩

/-- Read by the types alone, an empty content identifier would be lost (`as_string_option`); the runtime never returns
one. -/
example : ((writeMessage ⟨7, 0, 12, none, none, some [], some 4⟩).bind readMessage).map (·.cid) = some none := by
  decide +kernel

end Verif.Rpc
