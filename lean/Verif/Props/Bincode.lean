import Verif.Model.Bincode
import Verif.Spec.Bincode
import Verif.Lemmas.Serial
import Verif.Props.Delta
import Verif.Props.Client
/-!
C104: the files that the Rust programs keep in the format of `bincode` are read as they were written, or not at all.
-/
namespace Verif.Spec

/-- `f` reads exactly the format `P` from the front of a text. -/
def Reads {α : Type} (P : Bytes → α → Prop) (f : Bytes → Option (α × Bytes)) : Prop :=
  (∀ a x r, P a x → f (a ++ r) = some (x, r)) ∧ ∀ t x r, f t = some (x, r) → ∃ a, P a x ∧ t = a ++ r

end Verif.Spec

namespace Verif.Props
open Verif.Spec

theorem uint64LE_foldr : ∀ t : Bytes, uint64LE t = t.foldr (fun b v => b.toNat + 256 * v) 0
  | [] => rfl
  | b :: t => by rw [uint64LE, uint64LE_foldr t]; rfl

theorem word_binLen {n : Nat} (h : n < 2 ^ 64) : Word (binLen n) n := by
  refine ⟨length_putUint64LE _, ?_⟩
  rw [← uint64LE_foldr]
  show n = uint64LE (putUint64LE (UInt64.ofNat n))
  rw [uint64LE_putUint64LE, UInt64.toNat_ofNat', Nat.mod_eq_of_lt h]

theorem reads_word : Reads Word unbinLen := by
  constructor
  · rintro a n r ⟨h1, h2⟩
    unfold unbinLen
    rw [if_neg (by rw [List.length_append]; omega), List.take_left' h1, List.drop_left' h1, uint64LE_foldr, ← h2]
  · intro t n r h
    unfold unbinLen at h
    split at h
    · cases h
    · rename_i hl
      cases h
      exact ⟨t.take 8, ⟨by rw [List.length_take]; omega, uint64LE_foldr _⟩, (List.take_append_drop 8 t).symm⟩

theorem reads_blob : Reads Blob unbinBytes := by
  constructor
  · rintro a b r ⟨h, hw, rfl⟩
    unfold unbinBytes
    rw [List.append_assoc, reads_word.1 _ _ _ hw]
    dsimp only
    rw [if_neg (by rw [List.length_append]; omega), List.take_left, List.drop_left]
  · intro t b r h
    unfold unbinBytes at h
    split at h
    · cases h
    · rename_i n q hq
      split at h
      · cases h
      · rename_i hl
        cases h
        obtain ⟨a, ha, rfl⟩ := reads_word.2 _ _ _ hq
        refine ⟨a ++ q.take n, ⟨a, ?_, rfl⟩, by rw [List.append_assoc, List.take_append_drop]⟩
        rw [List.length_take, Nat.min_eq_left (by omega)]
        exact ha

section
variable {α : Type} {P : Bytes → α → Prop} {f : Bytes → Option (α × Bytes)} (hf : Reads P f)
include hf

theorem items_read {b : Bytes} {l : List α} (h : Items P b l) (r : Bytes) : unbinItems f l.length (b ++ r) = some (l, r) := by
  induction h with
  | nil => rfl
  | cons h1 h2 ih =>
    rw [List.length_cons, unbinItems, List.append_assoc, hf.1 _ _ _ h1]
    dsimp only
    rw [ih]

theorem read_items : ∀ (n : Nat) (t : Bytes) (l : List α) (r : Bytes), unbinItems f n t = some (l, r) → l.length = n ∧ ∃ b, Items P b l ∧ t = b ++ r
  | 0, t, l, r, h => by cases h; exact ⟨rfl, [], .nil, rfl⟩
  | n + 1, t, l, r, h => by
    rw [unbinItems] at h
    split at h
    · cases h
    · rename_i x q hq
      split at h
      · cases h
      · rename_i l' r' hl
        cases h
        obtain ⟨a, ha, rfl⟩ := hf.2 _ _ _ hq
        obtain ⟨h1, b, hb, rfl⟩ := read_items n q l' r hl
        exact ⟨by rw [List.length_cons, h1], a ++ b, .cons ha hb, by rw [List.append_assoc]⟩

theorem reads_counted : Reads (Counted P) (unbinSeq f) := by
  constructor
  · rintro a l r ⟨h, b, hw, hb, rfl⟩
    unfold unbinSeq
    rw [List.append_assoc, reads_word.1 _ _ _ hw]
    exact items_read hf hb r
  · intro t l r h
    unfold unbinSeq at h
    split at h
    · cases h
    · rename_i n q hq
      obtain ⟨a, ha, rfl⟩ := reads_word.2 _ _ _ hq
      obtain ⟨h1, b, hb, rfl⟩ := read_items hf n q l r h
      exact ⟨a ++ b, ⟨a, b, by rw [h1]; exact ha, hb, rfl⟩, by rw [List.append_assoc]⟩

/-- What a reader accepts determines its end. -/
theorem reads_unique {a a' r r' : Bytes} {x x' : α} (h : P a x) (h' : P a' x') (e : a ++ r = a' ++ r') : x = x' ∧ r = r' := by
  have h1 := hf.1 a x r h
  rw [e, hf.1 a' x' r' h'] at h1
  cases h1
  exact ⟨rfl, rfl⟩

/-- A part of something in the format is refused. -/
theorem reads_cut {p q : Bytes} {x : α} (h : P (p ++ q) x) (hq : q ≠ []) : f p = none := by
  cases hp : f p with
  | none => rfl
  | some y =>
    obtain ⟨y, r⟩ := y
    obtain ⟨a, ha, rfl⟩ := hf.2 _ _ _ hp
    have h1 := (reads_unique hf ha h (r := r ++ q) (r' := []) (by simp)).2
    exact absurd (List.append_eq_nil_iff.1 h1).2 hq

end

theorem reads_entry : Reads Entry unbinEntry := by
  constructor
  · rintro t e r ⟨a, b, ha, hb, rfl⟩
    unfold unbinEntry
    rw [List.append_assoc, reads_blob.1 _ _ _ ha]
    dsimp only
    rw [(reads_counted reads_blob).1 _ _ _ hb]
  · intro t e r h
    unfold unbinEntry at h
    split at h
    · cases h
    · rename_i k q hq
      split at h
      · cases h
      · rename_i l q' hl
        cases h
        obtain ⟨a, ha, rfl⟩ := reads_blob.2 _ _ _ hq
        obtain ⟨b, hb, rfl⟩ := (reads_counted reads_blob).2 _ _ _ hl
        exact ⟨a ++ b, ⟨a, b, ha, hb, rfl⟩, by rw [List.append_assoc]⟩

/-! ### writing -/

theorem items_map {α : Type} {P : Bytes → α → Prop} {g : α → Bytes} : ∀ l : List α, (∀ x ∈ l, P (g x) x) → Items P (l.map g).flatten l
  | [], _ => .nil
  | x :: l, h => .cons (h x List.mem_cons_self) (items_map l (fun y hy => h y (List.mem_cons_of_mem _ hy)))

theorem blob_binBytes {b : Bytes} (h : b.length < 2 ^ 64) : Blob (binBytes b) b := ⟨_, word_binLen h, rfl⟩

theorem counted_binSeq {α : Type} {P : Bytes → α → Prop} {g : α → Bytes} {l : List α} (hl : l.length < 2 ^ 64) (h : ∀ x ∈ l, P (g x) x) : Counted P (binSeq g l) l :=
  ⟨_, _, word_binLen hl, items_map l h, rfl⟩

theorem setFile_binSet {l : List Bytes} (h : Small l) : SetFile (binSet l) l := counted_binSeq h.1 (fun b hb => blob_binBytes (h.2 b hb))

theorem mapFile_binMap {m : Intermediates} (h : SmallMap m) : MapFile (binMap m) m :=
  counted_binSeq h.1 (fun e he => ⟨_, _, blob_binBytes (h.2 e he).1, setFile_binSet (h.2 e he).2, rfl⟩)

/-! ### sets and maps -/

theorem mem_foldl_hashInsert (l : List Bytes) (x : Bytes) : ∀ s, x ∈ l.foldl hashInsert s ↔ x ∈ s ∨ x ∈ l := by
  induction l with
  | nil => intro s; simp
  | cons y l ih =>
    intro s
    rw [List.foldl_cons, ih]
    unfold hashInsert
    split
    · rename_i h
      have hy : y ∈ s := by simpa using h
      constructor
      · rintro (h | h)
        · exact .inl h
        · exact .inr (List.mem_cons_of_mem _ h)
      · rintro (h | h)
        · exact .inl h
        · rcases List.mem_cons.1 h with rfl | h
          · exact .inl hy
          · exact .inr h
    · rw [List.mem_append, List.mem_singleton, List.mem_cons, or_assoc]

theorem nodup_foldl_hashInsert (l : List Bytes) : ∀ s : List Bytes, s.Nodup → (l.foldl hashInsert s).Nodup := by
  induction l with
  | nil => intro s h; exact h
  | cons y l ih =>
    intro s h
    rw [List.foldl_cons]
    apply ih
    unfold hashInsert
    split
    · exact h
    · rename_i hy
      have hy' : y ∉ s := by simpa using hy
      rw [List.nodup_append]
      exact ⟨h, by simp, fun a ha b hb => by rw [List.mem_singleton] at hb; subst hb; intro e; subst e; exact hy' ha⟩

theorem interGet_cons (e : Bytes × List Bytes) (m : Intermediates) (k : Bytes) : interGet (e :: m) k = if e.1 = k then some e.2 else interGet m k := by
  by_cases h : e.1 = k <;> simp [interGet, h]

theorem interGet_filter_ne (m : Intermediates) {n k : Bytes} (h : n ≠ k) : interGet (m.filter (fun x => !decide (x.1 = n))) k = interGet m k := by
  induction m with
  | nil => rfl
  | cons e m ih =>
    by_cases he : e.1 = n
    · have : e.1 ≠ k := by rw [he]; exact h
      rw [List.filter_cons_of_neg (by simp [he]), ih, interGet_cons, if_neg this]
    · rw [List.filter_cons_of_pos (by simp [he]), interGet_cons, interGet_cons, ih]

theorem interGet_hashPut (m : Intermediates) (e : Bytes × List Bytes) (k : Bytes) : interGet (hashPut m e) k = if e.1 = k then some e.2 else interGet m k := by
  unfold hashPut
  rw [interGet_cons]
  split
  · rfl
  · rename_i h
    exact interGet_filter_ne m h

theorem interGet_append (l m : Intermediates) (k : Bytes) : interGet (l ++ m) k = (interGet l k).or (interGet m k) := by
  induction l with
  | nil => rfl
  | cons e l ih =>
    rw [List.cons_append, interGet_cons, interGet_cons, ih]
    split <;> rfl

theorem interGet_foldl (l : Intermediates) (k : Bytes) : ∀ m : Intermediates, interGet (l.foldl hashPut m) k = (interGet l.reverse k).or (interGet m k) := by
  induction l with
  | nil => intro m; rfl
  | cons e l ih =>
    intro m
    rw [List.foldl_cons, ih, interGet_hashPut, List.reverse_cons, interGet_append, interGet_cons]
    by_cases h : e.1 = k
    · rw [if_pos h, if_pos h]
      cases interGet l.reverse k <;> rfl
    · rw [if_neg h, if_neg h]
      cases interGet l.reverse k <;> rfl

theorem interGet_mem {m : Intermediates} (hn : (m.map Prod.fst).Nodup) (k : Bytes) (v : List Bytes) : interGet m k = some v ↔ (k, v) ∈ m := by
  induction m with
  | nil => simp [interGet]
  | cons e m ih =>
    rw [List.map_cons, List.nodup_cons] at hn
    rw [interGet_cons]
    split
    · rename_i h
      constructor
      · rintro h2
        cases h2
        rw [← h]
        exact List.mem_cons_self
      · intro h2
        rcases List.mem_cons.1 h2 with rfl | h2
        · rfl
        · exact absurd (List.mem_map.2 ⟨_, h2, h.symm⟩) hn.1
    · rename_i h
      rw [ih hn.2]
      constructor
      · exact List.mem_cons_of_mem _
      · intro h2
        rcases List.mem_cons.1 h2 with rfl | h2
        · exact absurd rfl h
        · exact h2

theorem interGet_perm {m m' : Intermediates} (h : m.Perm m') (hn : (m.map Prod.fst).Nodup) (k : Bytes) : interGet m k = interGet m' k := by
  have hn' : (m'.map Prod.fst).Nodup := (h.map Prod.fst).nodup_iff.1 hn
  apply Option.ext
  intro v
  rw [interGet_mem hn, interGet_mem hn', h.mem_iff]

theorem interPush_names (m : Intermediates) (name der : Bytes) : (m.map Prod.fst).Nodup → ((interPush m name der).map Prod.fst).Nodup ∧ ∀ k, k ∈ (interPush m name der).map Prod.fst → k = name ∨ k ∈ m.map Prod.fst := by
  induction m with
  | nil => intro _; exact ⟨by simp [interPush], fun k hk => by simp [interPush] at hk; exact .inl hk⟩
  | cons e m ih =>
    intro hn
    rw [List.map_cons, List.nodup_cons] at hn
    unfold interPush
    split
    · rename_i h
      subst h
      refine ⟨by rw [List.map_cons, List.nodup_cons]; exact hn, fun k hk => .inr hk⟩
    · rename_i h
      obtain ⟨h1, h2⟩ := ih hn.2
      refine ⟨?_, ?_⟩
      · rw [List.map_cons, List.nodup_cons]
        refine ⟨fun hc => ?_, h1⟩
        rcases h2 _ hc with h3 | h3
        · exact h h3
        · exact hn.1 h3
      · intro k hk
        rw [List.map_cons] at hk
        rcases List.mem_cons.1 hk with h3 | h3
        · exact .inr (by rw [h3]; exact List.mem_cons_self)
        · rcases h2 k h3 with h3 | h3
          · exact .inl h3
          · exact .inr (List.mem_cons_of_mem _ h3)

theorem fromEnrolled_nodup (pem : Text → Option Bytes) (parse : Bytes → Option IssuerCert) (recs : List Text) : ∀ m : Intermediates, (m.map Prod.fst).Nodup → ((recs.foldl (enrollOne pem parse) m).map Prod.fst).Nodup := by
  induction recs with
  | nil => intro m h; exact h
  | cons r recs ih =>
    intro m h
    rw [List.foldl_cons]
    apply ih
    unfold enrollOne
    split
    · exact h
    · split
      · exact h
      · exact (interPush_names m _ _ h).1

/-! ### the property -/

/-- **C104, one meaning.** What the files say does not depend on what follows: of two texts of which one begins with the other, both in the format, both hold the same and are the same. -/
theorem C104_one_meaning (a a' r r' : Bytes) (e : a ++ r = a' ++ r') :
    (∀ l l', SetFile a l → SetFile a' l' → l = l' ∧ a = a') ∧ ∀ m m', MapFile a m → MapFile a' m' → m = m' ∧ a = a' := by
  refine ⟨fun l l' h h' => ?_, fun m m' h h' => ?_⟩
  · obtain ⟨h1, rfl⟩ := reads_unique (reads_counted reads_blob) h h' e
    exact ⟨h1, List.append_cancel_right e⟩
  · obtain ⟨h1, rfl⟩ := reads_unique (reads_counted reads_entry) h h' e
    exact ⟨h1, List.append_cancel_right e⟩

/-- **C104, written.** The programs write files of the format, whatever the order in which they go through set and map. -/
theorem C104_written (l : List Bytes) (m : Intermediates) : (Small l → SetFile (binSet l) l) ∧ (SmallMap m → MapFile (binMap m) m) := ⟨setFile_binSet, mapFile_binMap⟩

/-- **C104, the reader accepts nothing else.** A set is read exactly from the texts that begin with a file of the format, and it is the set in the file; the same for the map, where of several entries for a name the last counts. -/
theorem C104_read_exact (t : Bytes) :
    (∀ s, unbinSet t = some s → s.Nodup ∧ ∃ a r l, t = a ++ r ∧ SetFile a l ∧ ∀ k, k ∈ s ↔ k ∈ l) ∧
    (∀ a r l, t = a ++ r → SetFile a l → ∃ s, unbinSet t = some s ∧ ∀ k, k ∈ s ↔ k ∈ l) ∧
    (∀ m, unbinMap t = some m → ∃ a r l, t = a ++ r ∧ MapFile a l ∧ ∀ k, interGet m k = (l.reverse.find? (fun e => decide (e.1 = k))).map Prod.snd) ∧
    (∀ a r l, t = a ++ r → MapFile a l → ∃ m, unbinMap t = some m ∧ ∀ k, interGet m k = (l.reverse.find? (fun e => decide (e.1 = k))).map Prod.snd) := by
  have hs : ∀ l k, k ∈ List.foldl hashInsert [] l ↔ k ∈ l := by
    intro l k
    rw [mem_foldl_hashInsert]
    simp
  have hm : ∀ l : Intermediates, ∀ k, interGet (l.foldl hashPut []) k = (l.reverse.find? (fun e => decide (e.1 = k))).map Prod.snd := by
    intro l k
    rw [interGet_foldl l k []]
    show (interGet l.reverse k).or none = interGet l.reverse k
    cases interGet l.reverse k <;> rfl
  refine ⟨fun s h => ?_, fun a r l e h => ?_, fun m h => ?_, fun a r l e h => ?_⟩
  · unfold unbinSet at h
    split at h
    · cases h
    · rename_i l r hl
      cases h
      obtain ⟨a, ha, e⟩ := (reads_counted reads_blob).2 _ _ _ hl
      exact ⟨nodup_foldl_hashInsert l [] List.nodup_nil, a, r, l, e, ha, hs l⟩
  · unfold unbinSet
    rw [e, (reads_counted reads_blob).1 _ _ _ h]
    exact ⟨_, rfl, hs l⟩
  · unfold unbinMap at h
    split at h
    · cases h
    · rename_i l r hl
      cases h
      obtain ⟨a, ha, e⟩ := (reads_counted reads_entry).2 _ _ _ hl
      exact ⟨a, r, l, e, ha, hm l⟩
  · unfold unbinMap
    rw [e, (reads_counted reads_entry).1 _ _ _ h]
    exact ⟨_, rfl, hm l⟩

/-- **C104, cut short.** From a file of which the end is missing, nothing is read. -/
theorem C104_cut (p q : Bytes) (hq : q ≠ []) : (∀ l, SetFile (p ++ q) l → unbinSet p = none) ∧ ∀ m, MapFile (p ++ q) m → unbinMap p = none := by
  refine ⟨fun l h => ?_, fun m h => ?_⟩
  · unfold unbinSet
    rw [reads_cut (reads_counted reads_blob) h hq]
  · unfold unbinMap
    rw [reads_cut (reads_counted reads_entry) h hq]

/-- **C104, the previous revocation set.** The next run finds in the file exactly the keys that were written if the file is whole, none if a part is missing. -/
theorem C104_previous (l : List Bytes) (hl : Small l) (p q : Bytes) (e : binSet l = p ++ q) (k : Bytes) : k ∈ prevSet (unbinSet p) ↔ q = [] ∧ k ∈ l := by
  have h := setFile_binSet hl
  by_cases hq : q = []
  · subst hq
    rw [List.append_nil] at e
    rw [e] at h
    obtain ⟨s, h1, h2⟩ := (C104_read_exact p).2.1 p [] l (List.append_nil p).symm h
    rw [h1]
    exact (h2 k).trans ⟨fun h => ⟨rfl, h⟩, fun h => h.2⟩
  · rw [e] at h
    rw [(C104_cut p q hq).1 l h]
    simp [prevSet, hq]

/-- **C104, the next run.** A run that finds the file of an earlier run, or the beginning of it, writes a delta with every known revoked serial that was not in the earlier set: exactly these if the file was whole, all known revoked serials if not. No revocation is lost. -/
theorem C104_next_run (rs : ReasonSet) (l : List Bytes) (hl : Small l) (p q : Bytes) (e : binSet l = p ++ q) (w : RunInput) (extra : Dir) (h : GoodInput w extra) :
    ∃ w' revset, writeRevsetAndDelta rs (unbinSet p) (revokedDir w extra) (knownDir w) = some (revokedDir w' [], revset) ∧
      (∀ k, k ∈ revset ↔ ∃ d s, KnownIn w d s ∧ RevokedIn rs w d s ∧ k = crliteKey d s) ∧
      ∀ d s, RevokedIn rs w' d s ↔ KnownIn w d s ∧ RevokedIn rs w d s ∧ (q = [] → crliteKey d s ∉ l) := by
  obtain ⟨w', revset, h1, h2, _, _, _, _, h3, _⟩ := C58_delta rs (unbinSet p) w extra h
  refine ⟨w', revset, h1, h2, fun d s => ?_⟩
  rw [h3, C104_previous l hl p q e]
  constructor
  · rintro ⟨a, b, c⟩
    exact ⟨a, b, fun hq hk => c ⟨hq, hk⟩⟩
  · rintro ⟨a, b, c⟩
    exact ⟨a, b, fun hk => c hk.1 hk.2⟩

/-- **C104, the client's issuers.** A client that reads the file which an update left, whatever the order in which the map was gone through, finds for every certificate the same issuer key as from the downloaded list itself. From a part of the file it reads
nothing: it ends with an error instead of treating issuers as not enrolled. -/
theorem C104_client (pem : Text → Option Bytes) (parse : Bytes → Option IssuerCert) (recs : List Text) (m : Intermediates) (hp : m.Perm (fromEnrolled pem parse recs)) (hs : SmallMap m) (p q : Bytes) (e : binMap m = p ++ q) :
    (q ≠ [] → unbinMap p = none) ∧
    (q = [] → ∃ m2, unbinMap p = some m2 ∧ ∀ verifies dn, lookupSpki parse verifies m2 dn = lookupSpki parse verifies (fromEnrolled pem parse recs) dn) := by
  have h := mapFile_binMap hs
  rw [e] at h
  refine ⟨fun hq => (C104_cut p q hq).2 m h, fun hq => ?_⟩
  subst hq
  rw [List.append_nil] at h
  have hn : (m.map Prod.fst).Nodup := (hp.map Prod.fst).nodup_iff.2 (fromEnrolled_nodup pem parse recs [] List.nodup_nil)
  obtain ⟨m2, h1, h2⟩ := (C104_read_exact p).2.2.2 p [] m (List.append_nil p).symm h
  refine ⟨m2, h1, fun verifies dn => ?_⟩
  unfold lookupSpki
  have h3 : interGet m2 dn = interGet m dn := (h2 dn).trans (interGet_perm (List.reverse_perm m) ((List.reverse_perm m).map Prod.fst |>.nodup_iff.2 hn) dn)
  rw [h3, interGet_perm hp hn]

/-- **C104, a part of the file stays.** Since the file is only fetched if there is none, a part of it that an interrupted update left makes every later start fail, although each of them could fetch it anew. -/
theorem C104_stuck_fails : ∃ (m : Intermediates) (p q : Bytes), binMap m = p ++ q ∧ q ≠ [] ∧ (unbinMap (binMap m)).isSome ∧
    ∀ fetched, loadInters (some p) fetched = (none, some p) :=
  ⟨[([1], [[2]])], [1], (binMap [([1], [[2]])]).drop 1, by decide +kernel, by decide +kernel, by decide +kernel, fun _ => rfl⟩

/-! ### examples -/

example : binSet [[7, 8], []] = [2, 0, 0, 0, 0, 0, 0, 0, 2, 0, 0, 0, 0, 0, 0, 0, 7, 8, 0, 0, 0, 0, 0, 0, 0, 0] := by decide +kernel

example : Small [[7, 8], []] ∧ SmallMap [([1], [[7, 8], []])] := by
  refine ⟨⟨by decide, by decide⟩, by decide, ?_⟩
  intro e he
  rw [List.mem_singleton] at he
  subst he
  exact ⟨by decide, by decide, by decide⟩

/-- Repeated keys are kept once, what follows is ignored, and a part is refused. -/
example : unbinSet (binSet [[7, 8], [9], [7, 8]] ++ [1, 2, 3]) = some [[7, 8], [9]] ∧ unbinSet ((binSet [[7, 8], [9]]).take 26) = none ∧ unbinSet [255, 255, 255, 255, 255, 255, 255, 255, 1] = none := by
  decide +kernel

/-- Of two entries for a name the last counts. -/
example : unbinMap (binMap [([1], [[2]]), ([3], []), ([1], [[4], [5]])]) = some [([1], [[4], [5]]), ([3], [])] := by decide +kernel

/-- A client with two certificates of one name. -/
example : fromEnrolled (fun t => some [UInt8.ofNat t.length]) (fun b => some ⟨[0], b⟩) ["a".toList, "bb".toList] = [([0], [[1], [2]])] ∧
    SmallMap [([0], [[1], [2]])] ∧ lookupSpki (fun b => some ⟨[0], b⟩) (fun k => decide (k = [2])) [([0], [[1], [2]])] [0] = some [2] := by
  refine ⟨by decide +kernel, ⟨by decide, ?_⟩, by decide +kernel⟩
  intro e he
  rw [List.mem_singleton] at he
  subst he
  exact ⟨by decide, by decide, by decide⟩

/-- An input of a run that satisfies the condition on inputs, and a set that is small enough. -/
example : GoodInput (exW 0) [] ∧ Small [List.replicate 32 7 ++ [1]] := ⟨exW_good 0, by decide, by decide⟩

/-! ### each theorem applied -/

example := (C104_one_meaning (binSet [[7, 8], []]) (binSet [[7, 8], []]) [1, 2] [1, 2] rfl).1 [[7, 8], []] [[7, 8], []] (setFile_binSet ⟨by decide, by decide⟩) (setFile_binSet ⟨by decide, by decide⟩)

example : unbinSet ((binSet [[7, 8], []]).take 20) = none :=
  (C104_cut ((binSet [[7, 8], []]).take 20) ((binSet [[7, 8], []]).drop 20) (by decide +kernel)).1 [[7, 8], []] (by rw [List.take_append_drop]; exact setFile_binSet ⟨by decide, by decide⟩)

example := C104_previous [[7, 8], []] ⟨by decide, by decide⟩ (binSet [[7, 8], []]) [] (List.append_nil _).symm [7, 8]
example := C104_previous [[7, 8], []] ⟨by decide, by decide⟩ ((binSet [[7, 8], []]).take 20) ((binSet [[7, 8], []]).drop 20) (List.take_append_drop _ _).symm [7, 8]

example := C104_next_run .all [List.replicate 32 7 ++ [1]] ⟨by decide, by decide⟩ (binSet [List.replicate 32 7 ++ [1]]) [] (List.append_nil _).symm (exW 0) [] (exW_good 0)

example := C104_client (fun t => some [UInt8.ofNat t.length]) (fun b => some ⟨[0], b⟩) ["a".toList, "bb".toList] [([0], [[1], [2]])]
  (by rw [show fromEnrolled (fun t => some [UInt8.ofNat t.length]) (fun b => some ⟨[0], b⟩) ["a".toList, "bb".toList] = [([0], [[1], [2]])] by decide +kernel])
  ⟨by decide, fun e he => by rw [List.mem_singleton] at he; subst he; exact ⟨by decide, by decide, by decide⟩⟩ (binMap [([0], [[1], [2]])]) [] (List.append_nil _).symm

end Verif.Props
