import Verif.Props.Time
import Verif.Lemmas.Serial
import Verif.Spec.Keys
/-!
Properties C09, C14, C39, C40: names of bins and of log states.
-/
namespace Verif
open Verif.Spec

theorem splitColons_part (a rest acc : Text) (h : ':' ∉ a) :
    splitColons (a ++ ':' :: ':' :: rest) acc = (acc.reverse ++ a) :: splitColons rest [] := by
  induction a generalizing acc with
  | nil => simp [splitColons]
  | cons c a ih =>
    have hc : c ≠ ':' := fun e => h (by simp [e])
    have ha : ':' ∉ a := fun e => h (by simp [e])
    have := ih (c :: acc) ha
    cases a with
    | nil =>
      simp only [List.nil_append, List.cons_append] at this ⊢
      rw [splitColons, if_neg (by simp [hc]), this]
      simp
    | cons d a =>
      simp only [List.cons_append] at this ⊢
      rw [splitColons, if_neg (by simp [hc]), this]
      simp

theorem splitColons_last (a acc : Text) (h : ':' ∉ a) : splitColons a acc = [acc.reverse ++ a] := by
  induction a generalizing acc with
  | nil => simp [splitColons]
  | cons c a ih =>
    have hc : c ≠ ':' := fun e => h (by simp [e])
    have ha : ':' ∉ a := fun e => h (by simp [e])
    have := ih (c :: acc) ha
    cases a with
    | nil => simp [splitColons]
    | cons d a =>
      rw [splitColons, if_neg (by simp [hc]), this]
      simp

theorem splitColons_binName (d i : Text) (hd : ':' ∉ d) (hi : ':' ∉ i) :
    splitColons (serialCacheKeyID d i) [] = [serialsWord, d, i] := by
  unfold serialCacheKeyID
  rw [splitColons_part _ _ _ (by decide), splitColons_part _ _ _ hd, splitColons_last _ _ hi]
  simp

/-- `splitColons` finds the cut that the specification describes, with the text `acc` before it. -/
theorem splitColons_spec (t : Text) : ∀ acc : Text, NoColons (acc.reverse ++ (t.head?.toList)) → Split (acc.reverse ++ t) (splitColons t acc) := by
  induction h : t.length using Nat.strongRecOn generalizing t with
  | _ n ih =>
    intro acc hn
    match t with
    | [] => simpa [splitColons] using Split.last (by simpa using hn)
    | [c] => simpa [splitColons] using Split.last (by simpa using hn)
    | c :: d :: rest =>
      rw [splitColons]
      split
      · rename_i hc
        obtain ⟨rfl, rfl⟩ := hc
        have := ih rest.length (by rw [← h]; simp only [List.length_cons]; omega) rest rfl []
          (by intro a b e; have := congrArg List.length e; cases rest <;> simp at this <;> omega)
        exact Split.cut (by simpa using hn) (by simpa using this)
      · rename_i hc
        have := ih (d :: rest).length (by rw [← h]; simp) (d :: rest) rfl (c :: acc) (by
          intro a b e
          simp only [List.reverse_cons, List.append_assoc, List.singleton_append, List.head?_cons, Option.toList_some] at e
          rcases List.eq_nil_or_concat b with rfl | ⟨b', x, rfl⟩
          · have : acc.reverse ++ [c, d] = a ++ [':', ':'] := e
            have := (List.append_inj' this rfl).2
            simp only [List.cons.injEq, and_true] at this
            exact hc this
          · rw [List.concat_eq_append, show acc.reverse ++ [c, d] = (acc.reverse ++ [c]) ++ [d] by simp, show a ++ ':' :: ':' :: (b' ++ [x]) = (a ++ ':' :: ':' :: b') ++ [x] by simp] at e
            exact hn a b' (by simpa using (List.append_inj' e rfl).1))
        simpa using this

theorem Spec.Split.unique {t : Text} {p q : List Text} (h : Split t p) (k : Split t q) : p = q := by
  induction h generalizing q with
  | last hn =>
    cases k with
    | last _ => rfl
    | cut hn' k => exact absurd rfl (hn _ _)
  | @cut p t parts hn h ih =>
    generalize e : p ++ ':' :: ':' :: t = u at k
    cases k with
    | last hn' => exact absurd e.symm (hn' _ _)
    | @cut p' t' parts' hn' k =>
      have hp : p = p' ∧ t = t' := by
        rcases List.append_eq_append_iff.1 e with ⟨a, h1, h2⟩ | ⟨a, h1, h2⟩
        · match a with
          | [] => exact ⟨by simpa using h1.symm, by simpa using h2⟩
          | [x] => simp at h2; subst h1; exact absurd (by rw [← h2.1]; simp : p ++ [x] ++ [':'] = p ++ ':' :: ':' :: []) (hn' _ _)
          | x :: y :: a => simp at h2; subst h1; exact absurd (by rw [← h2.1, ← h2.2.1]; simp : p ++ x :: y :: a ++ [':'] = p ++ ':' :: ':' :: (a ++ [':'])) (hn' _ _)
        · match a with
          | [] => exact ⟨by simpa using h1, by simpa using h2.symm⟩
          | [x] => simp at h2; subst h1; exact absurd (by rw [← h2.1]; simp : p' ++ [x] ++ [':'] = p' ++ ':' :: ':' :: []) (hn _ _)
          | x :: y :: a => simp at h2; subst h1; exact absurd (by rw [← h2.1, ← h2.2.1]; simp : p' ++ x :: y :: a ++ [':'] = p' ++ ':' :: ':' :: (a ++ [':'])) (hn _ _)
      obtain ⟨rfl, rfl⟩ := hp
      rw [ih k]

theorem splitColons_iff (t : Text) (parts : List Text) : splitColons t [] = parts ↔ Split t parts := by
  have h : Split t (splitColons t []) := by
    have := splitColons_spec t [] (by intro a b e; have := congrArg List.length e; cases t <;> simp at this <;> omega)
    simpa using this
  constructor
  · rintro rfl; exact h
  · intro k; exact h.unique k

theorem hasPrefix_iff {p s : Text} : hasPrefix p s = true ↔ ∃ r, s = p ++ r := by
  unfold hasPrefix
  rw [decide_eq_true_eq]
  constructor
  · intro h
    exact ⟨s.drop p.length, by conv => lhs; rw [← List.take_append_drop p.length s, h]⟩
  · rintro ⟨r, rfl⟩
    exact List.take_left

theorem decDigit_ne_colon (n : Nat) : decDigit (n % 10) ≠ ':' := by
  have : ∀ n : Fin 10, decDigit n.val ≠ ':' := by decide
  exact this ⟨n % 10, Nat.mod_lt _ (by decide)⟩

theorem colon_not_mem_id (e : ExpDate) : ':' ∉ e.id := by
  have h : ∀ n, ':' ≠ decDigit (n % 10) := fun n => (decDigit_ne_colon n).symm
  unfold ExpDate.id formatHour formatDay dec4 dec2
  split <;> simp [h]

/-! trimming -/

theorem trimSlashes_append_slashes (u : Text) (i : Nat) : trimSlashes (u ++ List.replicate i '/') = trimSlashes u := by
  induction i with
  | zero => simp
  | succ i ih =>
    rw [List.replicate_succ', ← List.append_assoc]
    unfold trimSlashes at ih ⊢
    rw [List.reverse_append]
    simp at ih ⊢

theorem dropWhile_slash (l : Text) :
    ∃ i, l = List.replicate i '/' ++ l.dropWhile (fun c => c = '/') := by
  induction l with
  | nil => exact ⟨0, rfl⟩
  | cons c l ih =>
    by_cases h : c = '/'
    · obtain ⟨i, hi⟩ := ih
      refine ⟨i + 1, ?_⟩
      simp only [List.dropWhile_cons, h, decide_true, if_true, List.replicate_succ, List.cons_append]
      rw [← hi]
    · exact ⟨0, by simp [h]⟩

theorem trimSlashes_spec (u : Text) : ∃ i, u = trimSlashes u ++ List.replicate i '/' := by
  obtain ⟨i, hi⟩ := dropWhile_slash u.reverse
  refine ⟨i, ?_⟩
  have := congrArg List.reverse hi
  simpa [trimSlashes] using this

theorem trimSlashes_eq_iff (u v : Text) : trimSlashes u = trimSlashes v ↔ SameUrl u v := by
  constructor
  · intro h
    obtain ⟨i, hi⟩ := trimSlashes_spec u
    obtain ⟨j, hj⟩ := trimSlashes_spec v
    refine ⟨j, i, ?_⟩
    rw [hi, hj, ← h]
    generalize trimSlashes u = w at *
    subst hi
    rw [h, List.append_assoc, List.append_assoc, List.replicate_append_replicate,
      List.replicate_append_replicate, Nat.add_comm]
  · rintro ⟨i, j, h⟩
    rw [← trimSlashes_append_slashes u i, h, trimSlashes_append_slashes]

theorem trimSlashes_idem (u : Text) : trimSlashes (trimSlashes u) = trimSlashes u := by
  obtain ⟨i, hi⟩ := trimSlashes_spec u
  conv => rhs; rw [hi, trimSlashes_append_slashes]

theorem logKey_eq_iff (u v : Text) : logKey u = logKey v ↔ SameUrl u v := by
  unfold logKey
  rw [← trimSlashes_eq_iff]
  constructor
  · intro h; exact List.append_cancel_left h
  · intro h; rw [h]

theorem SameUrl.symm {u v : Text} : SameUrl u v → SameUrl v u := fun ⟨i, j, h⟩ => ⟨j, i, h.symm⟩

end Verif

namespace Verif.Props
open Verif Verif.Spec

/-- **C09 (parse back).** The name of the bin of a certificate with NotAfter `t` under the issuer with key digest `dg` splits
into three parts from which the listing recovers the issuer and the start of the hour of `t`. -/
theorem C09_bin_name_roundtrip (t : Int) (dg : Bytes) (h0 : 0 ≤ yearOf t) (h1 : yearOf t ≤ 9999) :
    ∃ p d i e, Split (serialCacheKeyID (newExpDateFromTime t).id (issuerID dg)) [p, d, i] ∧
      i = issuerID dg ∧ newExpDate d = some e ∧ e.date = t - t % 3600 ∧ e.id = (newExpDateFromTime t).id := by
  obtain ⟨e, he, hd, _, hid⟩ := C10_hour_roundtrip t h0 h1
  exact ⟨_, _, _, e, (splitColons_iff _ _).1 (splitColons_binName _ _ (colon_not_mem_id _) (colon_not_mem_b64Encode _ _)), rfl, he, hd, hid⟩

/-- **C09 (unique names).** No two (date, issuer) pairs share a bin name. -/
theorem C09_bin_name_injective (e e' : ExpDate) (dg dg' : Bytes)
    (h : serialCacheKeyID e.id (issuerID dg) = serialCacheKeyID e'.id (issuerID dg')) : e.id = e'.id ∧ dg = dg' := by
  have a := splitColons_binName e.id (issuerID dg) (colon_not_mem_id _) (colon_not_mem_b64Encode _ _)
  have b := splitColons_binName e'.id (issuerID dg') (colon_not_mem_id _) (colon_not_mem_b64Encode _ _)
  rw [h, b] at a
  simp only [List.cons.injEq, and_true, true_and] at a
  exact ⟨a.1.symm, b64Encode_injective a.2.symm⟩

/-- **C09 (handles).** The lookup handle is unique too, for 32-byte digests. -/
theorem C09_handle_injective (e e' : ExpDate) (dg dg' : Bytes) (hl : dg.length = 32) (hl' : dg'.length = 32)
    (h : accessorID e.id (issuerID dg) = accessorID e'.id (issuerID dg')) : e.id = e'.id ∧ dg = dg' := by
  unfold accessorID at h
  have hlen : (issuerID dg).length = (issuerID dg').length := by
    unfold issuerID; rw [length_b64Encode, length_b64Encode, hl, hl']
  obtain ⟨a, b⟩ := List.append_inj h hlen
  exact ⟨b, b64Encode_injective a⟩

/-- One lookup of a bin: date and issuer digest. -/
abbrev Lookup := ExpDate × Bytes

/-- Repeated lookups through the memo table. -/
def lookups : List Lookup → (Text → Option Text) → (Text → Option Text)
  | [], m => m
  | (e, dg) :: rest, m => lookups rest (getSerialCacheKey m e.id (issuerID dg)).2

/-- **C09 (memo).** Whatever was looked up before, looking up a bin gives that bin's own name. -/
theorem C09_memo_correct (ls : List Lookup) (e : ExpDate) (dg : Bytes) (hl : dg.length = 32)
    (hls : ∀ l ∈ ls, l.2.length = 32) :
    (getSerialCacheKey (lookups ls (fun _ => none)) e.id (issuerID dg)).1 = serialCacheKeyID e.id (issuerID dg) := by
  have inv : ∀ (ls : List Lookup) (m : Text → Option Text), (∀ l ∈ ls, l.2.length = 32) →
      (∀ (e : ExpDate) (dg : Bytes), dg.length = 32 → ∀ k, m (accessorID e.id (issuerID dg)) = some k →
        k = serialCacheKeyID e.id (issuerID dg)) →
      (∀ (e : ExpDate) (dg : Bytes), dg.length = 32 → ∀ k, lookups ls m (accessorID e.id (issuerID dg)) = some k →
        k = serialCacheKeyID e.id (issuerID dg)) := by
    intro ls
    induction ls with
    | nil => intro m _ h; exact h
    | cons l ls ih =>
      obtain ⟨e0, dg0⟩ := l
      intro m hls hm
      apply ih _ (fun l hl => hls l (List.mem_cons_of_mem _ hl))
      intro e dg hl k hk
      unfold getSerialCacheKey at hk
      split at hk
      · exact hm e dg hl k hk
      · dsimp only at hk
        split at hk
        · rename_i heq
          have := C09_handle_injective e e0 dg dg0 hl (hls _ List.mem_cons_self) heq
          rw [this.1, this.2]
          exact (Option.some.inj hk).symm
        · exact hm e dg hl k hk
  have := inv ls (fun _ => none) hls (by intro _ _ _ _ h; cases h) e dg hl
  unfold getSerialCacheKey
  split
  · rename_i k hk; exact this k hk
  · rfl

example : serialCacheKeyID (newExpDateFromTime 1700000000).id (issuerID [1, 2, 3]) =
    "serials::2023-11-14-22::AQID".toList := by decide +kernel

example : ∃ dg : Bytes, dg.length = 32 := ⟨List.replicate 32 7, by simp⟩

/-! ### C14 -/

/-- **C14 (load after saves).** After any history of saves, loading by a URL gives the last state saved for that URL (up to
trailing slashes); if there is none, what was there before. -/
theorem C14_load_after_saves (r : LogKV) (history : List CTLogState) (url : Text) :
    (∃ log, IsLastSave history url log ∧ loadLogState (history.foldl storeLogState r) url = some log) ∨
    ((∀ l ∈ history, ¬ SameUrl l.shortURL url) ∧
      loadLogState (history.foldl storeLogState r) url = loadLogState r url) := by
  rw [← List.reverse_reverse history]
  generalize history.reverse = hr
  induction hr with
  | nil => right; simp
  | cons log hr ih =>
    rw [List.reverse_cons]
    generalize hr.reverse = hist at *
    rw [List.foldl_append]
    simp only [List.foldl_cons, List.foldl_nil]
    by_cases h : logKey url = logKey log.shortURL
    · left
      refine ⟨log, ⟨hist, [], by simp, (logKey_eq_iff _ _).1 h.symm, by simp⟩, ?_⟩
      simp [loadLogState, storeLogState, h]
    · have hns : ¬ SameUrl log.shortURL url := fun hs => h ((logKey_eq_iff _ _).2 hs).symm
      have hload : ∀ r : LogKV, loadLogState (storeLogState r log) url = loadLogState r url := by
        intro r; simp [loadLogState, storeLogState, h]
      rw [hload]
      rcases ih with ⟨l, ⟨b, a, e, hs, ha⟩, hl⟩ | ⟨hn, hl⟩
      · left
        refine ⟨l, ⟨b, a ++ [log], by simp [e], hs, ?_⟩, hl⟩
        intro x hx
        rcases List.mem_append.1 hx with hx | hx
        · exact ha x hx
        · simp at hx; subst hx; exact hns
      · right
        refine ⟨?_, hl⟩
        intro x hx
        rcases List.mem_append.1 hx with hx | hx
        · exact hn x hx
        · simp at hx; subst hx; exact hns

/-- **C14 (isolation).** Saving a state never changes what loads for a different URL. -/
theorem C14_other_logs_untouched (r : LogKV) (log : CTLogState) (url : Text) (h : ¬ SameUrl log.shortURL url) :
    loadLogState (storeLogState r log) url = loadLogState r url := by
  have : logKey url ≠ logKey log.shortURL := fun e => h ((logKey_eq_iff _ _).1 e.symm)
  simp [loadLogState, storeLogState, this]

/-- **C14 (by log URL).** The state a worker starts from is the last one saved for its log, or a brand-new one if none was ever
saved, when Redis answers. -/
theorem C14_get_log_state (history : List CTLogState) (host path : Text) :
    (∃ log, IsLastSave history (host ++ trimSlashes path) log ∧
        getLogState false (history.foldl storeLogState (fun _ => none)) host path = log) ∨
    ((∀ l ∈ history, ¬ SameUrl l.shortURL (host ++ trimSlashes path)) ∧
        getLogState false (history.foldl storeLogState (fun _ => none)) host path =
          { logID := [], mmd := 0, shortURL := host ++ trimSlashes path, minEntry := 0, maxEntry := 0, minTimestamp := 0,
            maxTimestamp := 0, lastUpdateTime := none }) := by
  rcases C14_load_after_saves (fun _ => none) history (host ++ trimSlashes path) with ⟨log, h, e⟩ | ⟨h, e⟩
  · left; exact ⟨log, h, by simp [getLogState, e]⟩
  · right; refine ⟨h, ?_⟩
    have e0 : loadLogState (fun _ => none) (host ++ trimSlashes path) = none := rfl
    rw [e0] at e
    simp [getLogState, e, brandNew]

/-- **C14 fails when Redis fails.** If the Redis request fails, `GetLogState` returns a brand-new state although one is
stored. -/
theorem C14_redis_error_fails : ∃ (r : LogKV) (host path : Text) (log : CTLogState),
    loadLogState r (host ++ trimSlashes path) = some log ∧ log.maxEntry = 7 ∧ (getLogState true r host path).maxEntry = 0 := by
  refine ⟨storeLogState (fun _ => none) { brandNew "a".toList with maxEntry := 7 }, "a".toList, [], _, rfl, ?_, ?_⟩ <;> decide

example : SameUrl "ct.example/log".toList "ct.example/log//".toList := ⟨2, 0, by decide⟩

example : ¬ SameUrl "a".toList "b".toList := by
  rw [← trimSlashes_eq_iff]; decide

/-! ### C39 -/

/-- Every stored log state is under the key of its own URL, or under that key with one more slash (the old format). -/
def WellKeyed (r : LogKV) : Prop :=
  ∀ k log, r k = some (some log) → k = logKey log.shortURL ∨ k = logKey log.shortURL ++ ['/']

theorem trimSlashes_no_trailing (u : Text) : ∀ x, trimSlashes u ≠ x ++ ['/'] := by
  intro x h
  have h2 := trimSlashes_idem u
  rw [h] at h2
  have h3 := trimSlashes_append_slashes x 1
  simp only [List.replicate_one] at h3
  rw [h3] at h2
  obtain ⟨i, hi⟩ := trimSlashes_spec x
  have := congrArg List.length hi
  have := congrArg List.length h2
  simp at *
  omega

theorem logKey_no_trailing (u x : Text) : logKey u ≠ logKey x ++ ['/'] := by
  intro h
  unfold logKey at h
  rw [List.append_assoc] at h
  exact trimSlashes_no_trailing u _ (List.append_cancel_left h)

theorem logKey_slash_inj {u v : Text} (h : logKey u ++ ['/'] = logKey v ++ ['/']) : logKey u = logKey v :=
  List.append_cancel_right h

/-- The state migration should leave loadable: the one under the new key, else the one under the old key. -/
def newestState (r : LogKV) (url : Text) : Option CTLogState :=
  match r (logKey url) with
  | some s => s
  | none => match r (logKey url ++ ['/']) with
    | some s => s
    | none => none

theorem old_key_match (r : LogKV) (hw : WellKeyed r) (url : Text) (log : CTLogState)
    (h : r (logKey url ++ ['/']) = some (some log)) : logKey log.shortURL = logKey url := by
  rcases hw _ _ h with e | e
  · exact absurd e.symm (logKey_no_trailing _ _)
  · exact (logKey_slash_inj e).symm

theorem migrate_none (r : LogKV) (host path : Text)
    (h : r (logKey (host ++ trimSlashes path) ++ ['/']) = none) :
    migrateWrites r host path = some [] := by
  simp [migrateWrites, h]

theorem migrate_both (r : LogKV) (host path : Text) (o s : Option CTLogState)
    (h : r (logKey (host ++ trimSlashes path) ++ ['/']) = some o) (h2 : r (logKey (host ++ trimSlashes path)) = some s) :
    migrateWrites r host path = some [.del (logKey (host ++ trimSlashes path) ++ ['/'])] := by
  simp [migrateWrites, h, h2]

theorem migrate_old (r : LogKV) (host path : Text) (log : CTLogState)
    (h : r (logKey (host ++ trimSlashes path) ++ ['/']) = some (some log))
    (h2 : r (logKey (host ++ trimSlashes path)) = none) :
    migrateWrites r host path = some [.store log, .del (logKey (host ++ trimSlashes path) ++ ['/'])] := by
  simp [migrateWrites, h, h2]

theorem migrate_bad (r : LogKV) (host path : Text)
    (h : r (logKey (host ++ trimSlashes path) ++ ['/']) = some none)
    (h2 : r (logKey (host ++ trimSlashes path)) = none) : migrateWrites r host path = none := by
  simp [migrateWrites, h, h2]

theorem migrate_eq (r : LogKV) (host path : Text) (ws : List LogWrite) (h : migrateWrites r host path = some ws) :
    migrate r host path = ws.foldl LogWrite.apply r := by
  simp [migrate, h]

/-- **C39 (nothing lost).** After migrating a log without error, its URL loads the newest state there was. -/
theorem C39_migrate_keeps (r : LogKV) (hw : WellKeyed r) (host path : Text) (hok : migrateWrites r host path ≠ none) :
    loadLogState (migrate r host path) (host ++ trimSlashes path) = newestState r (host ++ trimSlashes path) := by
  have hne : logKey (host ++ trimSlashes path) ≠ logKey (host ++ trimSlashes path) ++ ['/'] := logKey_no_trailing _ _
  cases hold : r (logKey (host ++ trimSlashes path) ++ ['/']) with
  | none =>
    rw [migrate_eq _ _ _ _ (migrate_none r host path hold)]
    simp only [List.foldl_nil]
    unfold newestState loadLogState
    rw [hold]
    cases r (logKey (host ++ trimSlashes path)) with
    | none => rfl
    | some s => cases s <;> rfl
  | some o =>
    cases hnew : r (logKey (host ++ trimSlashes path)) with
    | some s =>
      rw [migrate_eq _ _ _ _ (migrate_both r host path o s hold hnew)]
      unfold newestState loadLogState
      simp only [List.foldl_cons, List.foldl_nil, LogWrite.apply]
      rw [if_neg hne, hnew]
      cases s <;> rfl
    | none =>
      cases o with
      | none => exact absurd (migrate_bad r host path hold hnew) hok
      | some log =>
        have hk := old_key_match r hw _ log hold
        rw [migrate_eq _ _ _ _ (migrate_old r host path log hold hnew)]
        unfold newestState loadLogState
        simp only [List.foldl_cons, List.foldl_nil, LogWrite.apply, storeLogState]
        rw [if_neg hne, if_pos hk.symm, hnew, hold]

/-- **C39 (errors).** A migration that reports an error changes nothing; it does so only if the old record does not parse and there
is no new one. -/
theorem C39_error_no_change (r : LogKV) (host path : Text) (h : migrateWrites r host path = none) :
    migrate r host path = r ∧ r (logKey (host ++ trimSlashes path) ++ ['/']) = some none ∧
      r (logKey (host ++ trimSlashes path)) = none := by
  refine ⟨by simp [migrate, h], ?_⟩
  cases hold : r (logKey (host ++ trimSlashes path) ++ ['/']) with
  | none => rw [migrate_none r host path hold] at h; cases h
  | some o =>
    cases hnew : r (logKey (host ++ trimSlashes path)) with
    | some s => rw [migrate_both r host path o s hold hnew] at h; cases h
    | none =>
      cases o with
      | none => simp
      | some log => rw [migrate_old r host path log hold hnew] at h; cases h

/-- **C39 (other keys).** Only the two keys of that log can change. -/
theorem C39_other_keys_untouched (r : LogKV) (hw : WellKeyed r) (host path k : Text)
    (h1 : k ≠ logKey (host ++ trimSlashes path)) (h2 : k ≠ logKey (host ++ trimSlashes path) ++ ['/']) :
    migrate r host path k = r k := by
  cases hold : r (logKey (host ++ trimSlashes path) ++ ['/']) with
  | none => rw [migrate_eq _ _ _ _ (migrate_none r host path hold)]; rfl
  | some o =>
    cases hnew : r (logKey (host ++ trimSlashes path)) with
    | some s =>
      rw [migrate_eq _ _ _ _ (migrate_both r host path o s hold hnew)]
      simp [LogWrite.apply, h2]
    | none =>
      cases o with
      | none => rw [(C39_error_no_change r host path (migrate_bad r host path hold hnew)).1]
      | some log =>
        have hk := old_key_match r hw _ log hold
        rw [migrate_eq _ _ _ _ (migrate_old r host path log hold hnew)]
        simp [LogWrite.apply, storeLogState, hk, h1, h2]

/-- **C39 (after any crash).** Stop the migration after any number of its writes: a later migration gives the same result as an
uninterrupted one. With all writes done this is idempotence. -/
theorem C39_crash_then_rerun (r : LogKV) (hw : WellKeyed r) (host path : Text) (ws : List LogWrite)
    (hws : migrateWrites r host path = some ws) (n : Nat) :
    migrate ((ws.take n).foldl LogWrite.apply r) host path = migrate r host path := by
  rw [migrate_eq _ _ _ _ hws]
  have hne : logKey (host ++ trimSlashes path) ≠ logKey (host ++ trimSlashes path) ++ ['/'] := logKey_no_trailing _ _
  have hdel : ∀ r' : LogKV, r' (logKey (host ++ trimSlashes path) ++ ['/']) = none → migrate r' host path = r' := by
    intro r' h
    rw [migrate_eq _ _ _ _ (migrate_none r' host path h)]; rfl
  cases hold : r (logKey (host ++ trimSlashes path) ++ ['/']) with
  | none =>
    rw [migrate_none r host path hold] at hws
    cases hws
    simp only [List.take_nil, List.foldl_nil]
    exact hdel r hold
  | some o =>
    cases hnew : r (logKey (host ++ trimSlashes path)) with
    | some s =>
      have hb := migrate_both r host path o s hold hnew
      rw [hb] at hws
      cases hws
      match n with
      | 0 =>
        simp only [List.take_zero, List.foldl_nil]
        rw [migrate_eq _ _ _ _ hb]
      | n + 1 =>
        simp only [List.take_succ_cons, List.take_nil, List.foldl_cons, List.foldl_nil]
        apply hdel
        simp [LogWrite.apply]
    | none =>
      cases o with
      | none => rw [migrate_bad r host path hold hnew] at hws; cases hws
      | some log =>
        have hb := migrate_old r host path log hold hnew
        rw [hb] at hws
        cases hws
        have hk := old_key_match r hw _ log hold
        match n with
        | 0 =>
          simp only [List.take_zero, List.foldl_nil]
          rw [migrate_eq _ _ _ _ hb]
        | 1 =>
          simp only [List.take_succ_cons, List.take_zero, List.foldl_cons, List.foldl_nil]
          have a : LogWrite.apply r (.store log) (logKey (host ++ trimSlashes path)) = some (some log) := by
            simp [LogWrite.apply, storeLogState, hk]
          have b : LogWrite.apply r (.store log) (logKey (host ++ trimSlashes path) ++ ['/']) = some (some log) := by
            simp only [LogWrite.apply, storeLogState, hk]
            rw [if_neg (fun e => hne e.symm), hold]
          rw [migrate_eq _ _ _ _ (migrate_both _ host path _ _ b a)]
          rfl
        | n + 2 =>
          simp only [List.take_succ_cons, List.take_nil, List.foldl_cons, List.foldl_nil]
          apply hdel
          simp [LogWrite.apply]

/-- **C39 (idempotent).** -/
theorem C39_idempotent (r : LogKV) (hw : WellKeyed r) (host path : Text) :
    migrate (migrate r host path) host path = migrate r host path := by
  cases h : migrateWrites r host path with
  | none =>
    have : migrate r host path = r := by unfold migrate; rw [h]
    rw [this, this]
  | some ws =>
    have := C39_crash_then_rerun r hw host path ws h ws.length
    rw [List.take_length] at this
    rw [show ws.foldl LogWrite.apply r = migrate r host path by unfold migrate; rw [h]] at this
    exact this

/-- **C39 (guard).** The hypothesis that a state is filed under its own URL is needed: an old record filed under another log's
name overwrites that log's newer state. -/
theorem C39_misfiled_fails : ∃ (r : LogKV) (host path : Text) (log : CTLogState),
    loadLogState r "b".toList = some log ∧ loadLogState (migrate r host path) "b".toList ≠ some log := by
  refine ⟨fun k => if k = "log::b".toList then some (some { brandNew "b".toList with maxEntry := 9 }) else
      if k = "log::a/".toList then some (some (brandNew "b".toList)) else none, "a".toList, [], _, rfl, ?_⟩
  decide

example : WellKeyed (fun k => if k = "log::a/".toList then some (some (brandNew "a/".toList)) else none) := by
  intro k log h
  dsimp only at h
  split at h
  · rename_i hk; cases h; right; rw [hk]; decide
  · cases h

/-! ### C40 -/

theorem addDate_issuers (i : Text) (d : ExpDate) (l : List IssuerDates) (h : (l.map Prod.fst).Nodup) :
    ((addDate i d l).map Prod.fst).Nodup ∧ ∀ x, x ∈ (addDate i d l).map Prod.fst ↔ x = i ∨ x ∈ l.map Prod.fst := by
  induction l with
  | nil => simp [addDate]
  | cons p l ih =>
    obtain ⟨j, ds⟩ := p
    simp only [List.map_cons, List.nodup_cons] at h
    obtain ⟨ih1, ih2⟩ := ih h.2
    unfold addDate
    split
    · rename_i e
      subst e
      refine ⟨by simp [h.1, h.2], ?_⟩
      intro x; simp
    · rename_i e
      constructor
      · simp only [List.map_cons, List.nodup_cons]
        refine ⟨?_, ih1⟩
        rw [ih2]
        rintro (e' | e')
        · exact e e'
        · exact h.1 e'
      · intro x
        simp only [List.map_cons, List.mem_cons, ih2]
        constructor
        · rintro (a | a | a) <;> simp [a]
        · rintro (a | a | a) <;> simp [a]

theorem addDate_dates (i : Text) (d : ExpDate) (l : List IssuerDates) (h : (l.map Prod.fst).Nodup) (j : Text) :
    ((addDate i d l).filter (fun p => p.1 = j)).flatMap Prod.snd =
      (l.filter (fun p => p.1 = j)).flatMap Prod.snd ++ (if j = i then [d] else []) := by
  induction l with
  | nil =>
    by_cases e : i = j
    · simp [addDate, e]
    · have e' : ¬ j = i := fun h => e h.symm
      simp [addDate, e, e']
  | cons p l ih =>
    obtain ⟨k, ds⟩ := p
    simp only [List.map_cons, List.nodup_cons] at h
    unfold addDate
    split
    · rename_i e
      subst e
      by_cases e : k = j
      · subst e
        have hn : l.filter (fun p => p.1 = k) = [] := by
          rw [List.filter_eq_nil_iff]
          intro p hp hk
          apply h.1
          simp only [decide_eq_true_eq] at hk
          rw [← hk]
          exact List.mem_map_of_mem hp
        simp [hn]
      · have e' : ¬ j = k := fun h => e h.symm
        simp [e, e']
    · by_cases e' : k = j
      · simp [e', ih h.2]
      · simp [e', ih h.2]

theorem addDate_nonempty (i : Text) (d : ExpDate) (l : List IssuerDates) (h : ∀ p ∈ l, p.2 ≠ []) :
    ∀ p ∈ addDate i d l, p.2 ≠ [] := by
  induction l with
  | nil => simp [addDate]
  | cons p l ih =>
    obtain ⟨k, ds⟩ := p
    unfold addDate
    split
    · intro p hp
      rcases List.mem_cons.1 hp with e | hp
      · rw [e]; simp
      · exact h p (List.mem_cons_of_mem _ hp)
    · intro p hp
      rcases List.mem_cons.1 hp with e | hp
      · rw [e]; exact h _ List.mem_cons_self
      · exact ih (fun p hp => h p (List.mem_cons_of_mem _ hp)) p hp

/-- What one name contributes for issuer `j`: its date, if the name has three parts, the third is `j` and the date parses. -/
def binOf (j name : Text) : Option ExpDate :=
  match splitColons name [] with
  | [_, d, i] => if j = i then newExpDate d else none
  | _ => none

theorem listBinsLoop_spec (names : List Text) : ∀ (acc : List IssuerDates) (out : List IssuerDates),
    (acc.map Prod.fst).Nodup → (∀ p ∈ acc, p.2 ≠ []) → listBinsLoop names acc = some out →
    (out.map Prod.fst).Nodup ∧ (∀ p ∈ out, p.2 ≠ []) ∧
      ∀ j, (out.filter (fun p => p.1 = j)).flatMap Prod.snd =
        (acc.filter (fun p => p.1 = j)).flatMap Prod.snd ++ names.filterMap (binOf j) := by
  induction names with
  | nil =>
    intro acc out hn hne h
    simp only [listBinsLoop, Option.some.injEq] at h
    subst h
    exact ⟨hn, hne, by simp⟩
  | cons e rest ih =>
    intro acc out hn hne h
    unfold listBinsLoop at h
    split at h
    · rename_i p d i hsp
      split at h
      · rename_i hd
        obtain ⟨a, b, c⟩ := ih acc out hn hne h
        refine ⟨a, b, fun j => ?_⟩
        rw [c j]
        have : binOf j e = none := by simp [binOf, hsp, hd]
        simp [this]
      · rename_i x hd
        obtain ⟨a, b, c⟩ := ih _ out (addDate_issuers i x acc hn).1 (addDate_nonempty i x acc hne) h
        refine ⟨a, b, fun j => ?_⟩
        rw [c j, addDate_dates i x acc hn j]
        by_cases e1 : j = i
        · have : binOf j e = some x := by simp [binOf, hsp, hd, e1]
          subst e1
          simp [this]
        · have : binOf j e = none := by simp [binOf, hsp, e1]
          simp [this, e1]
    · cases h

theorem mem_flatMap_issuer (out : List IssuerDates) (j : Text) (x : ExpDate) :
    x ∈ (out.filter (fun p => p.1 = j)).flatMap Prod.snd ↔ ∃ ds, (j, ds) ∈ out ∧ x ∈ ds := by
  simp only [List.mem_flatMap, List.mem_filter, decide_eq_true_eq]
  constructor
  · rintro ⟨⟨k, ds⟩, ⟨h, e⟩, hx⟩
    dsimp only at e hx
    subst e
    exact ⟨ds, h, hx⟩
  · rintro ⟨ds, h, hx⟩
    exact ⟨(j, ds), ⟨h, rfl⟩, hx⟩

/-- **C40 (exact listing).** In a successful listing every issuer appears once, none with an empty date list, and a date is listed
under an issuer iff some name has that issuer as third and a text parsing to that date as second of exactly three parts. -/
theorem C40_listing_exact (names : List Text) (out : List IssuerDates) (h : listBins names = some out) :
    (out.map Prod.fst).Nodup ∧ (∀ p ∈ out, p.2 ≠ []) ∧
    ∀ j x, (∃ ds, (j, ds) ∈ out ∧ x ∈ ds) ↔
      ∃ name ∈ names, ∃ p d, Split name [p, d, j] ∧ newExpDate d = some x := by
  obtain ⟨a, b, c⟩ := listBinsLoop_spec names [] out (by simp) (by simp) h
  refine ⟨a, b, fun j x => ?_⟩
  rw [← mem_flatMap_issuer, c j]
  simp only [List.filter_nil, List.flatMap_nil, List.nil_append, List.mem_filterMap]
  constructor
  · rintro ⟨name, hm, hb⟩
    unfold binOf at hb
    split at hb
    · rename_i p d i hsp
      split at hb
      · rename_i e; subst e; exact ⟨name, hm, p, d, (splitColons_iff _ _).1 hsp, hb⟩
      · cases hb
    · cases hb
  · rintro ⟨name, hm, p, d, hsp, hd⟩
    exact ⟨name, hm, by simp [binOf, (splitColons_iff _ _).2 hsp, hd]⟩

/-- **C40 (repeats).** Grouping keeps multiplicity and order: the dates of an issuer are those of its names, in order. (A name
listed twice yields its date twice.) -/
theorem C40_listing_counts (names : List Text) (out : List IssuerDates) (h : listBins names = some out) (j : Text)
    (ds : List ExpDate) (hj : (j, ds) ∈ out) : ds = names.filterMap (binOf j) := by
  obtain ⟨a, hne, c⟩ := listBinsLoop_spec names [] out (by simp) (by simp) h
  have hc := c j
  simp only [List.filter_nil, List.flatMap_nil, List.nil_append] at hc
  rw [← hc]
  clear c hc h hne
  induction out with
  | nil => cases hj
  | cons p out ih =>
    simp only [List.map_cons, List.nodup_cons] at a
    rcases List.mem_cons.1 hj with e | hj'
    · subst e
      have hn : out.filter (fun p => p.1 = j) = [] := by
        rw [List.filter_eq_nil_iff]
        intro p hp hk
        simp only [decide_eq_true_eq] at hk
        have hm : p.1 ∈ out.map Prod.fst := List.mem_map_of_mem hp
        rw [hk] at hm
        exact a.1 hm
      simp [hn]
    · have hne : p.1 ≠ j := by
        intro e
        apply a.1
        rw [e]
        exact List.mem_map_of_mem (f := Prod.fst) hj'
      simp only [List.filter_cons, hne, decide_false, Bool.false_eq_true, if_false]
      exact ih hj' a.2

/-- **C40 (when it fails).** The listing fails iff some name does not have exactly three parts. -/
theorem C40_listing_fails_iff (names : List Text) :
    listBins names = none ↔ ∃ name ∈ names, ∃ parts, Split name parts ∧ parts.length ≠ 3 := by
  have : ∀ (names : List Text) (acc : List IssuerDates),
      listBinsLoop names acc = none ↔ ∃ name ∈ names, (splitColons name []).length ≠ 3 := by
    intro names
    induction names with
    | nil => simp [listBinsLoop]
    | cons e rest ih =>
      intro acc
      unfold listBinsLoop
      split
      · rename_i hsp
        split
        · rw [ih]; simp [hsp]
        · rw [ih]; simp [hsp]
      · rename_i hno
        simp only [List.mem_cons, exists_eq_or_imp, true_iff]
        left
        intro hlen
        match hs : splitColons e [], hlen with
        | [a, b, c], _ => exact hno a b c hs
  unfold listBins
  rw [this names []]
  constructor
  · rintro ⟨name, h, hn⟩; exact ⟨name, h, _, (splitColons_iff _ _).1 rfl, hn⟩
  · rintro ⟨name, h, parts, hs, hn⟩; exact ⟨name, h, by rw [(splitColons_iff _ _).2 hs]; exact hn⟩

/-- **C40 (storage).** A bin file that commit wrote for a certificate expiring at `t` under an issuer is listed, whatever else is
in the storage directory, if the listing succeeds. -/
theorem C40_stored_bin_listed (dirs : List DirEntry) (out : List IssuerDates) (h : listStorageBins dirs = some out)
    (t : Int) (dg : Bytes) (h0 : 0 ≤ yearOf t) (h1 : yearOf t ≤ 9999) (dir : DirEntry) (hd : dir ∈ dirs)
    (hdir : dir.isDir = true) (hname : dir.name = "issuer::".toList ++ issuerID dg)
    (hf : serialCacheKeyID (newExpDateFromTime t).id (issuerID dg) ∈ dir.files) :
    ∃ ds x, (issuerID dg, ds) ∈ out ∧ x ∈ ds ∧ x.id = (newExpDateFromTime t).id := by
  obtain ⟨_, _, hiff⟩ := C40_listing_exact _ out h
  obtain ⟨p, d, i, e, hsp, hi, he, _, hid⟩ := C09_bin_name_roundtrip t dg h0 h1
  have hmem : serialCacheKeyID (newExpDateFromTime t).id (issuerID dg) ∈ storageNames dirs := by
    unfold storageNames
    rw [List.mem_flatMap]
    refine ⟨dir, ?_, ?_⟩
    · rw [List.mem_filter]
      refine ⟨hd, ?_⟩
      rw [hdir, hname]
      simp [hasPrefix]
    · rw [List.mem_filter]
      refine ⟨hf, ?_⟩
      simp [hasPrefix, serialCacheKeyID, serialsWord]
  rw [hi] at hsp
  obtain ⟨ds, hds, hx⟩ := (hiff (issuerID dg) e).2 ⟨_, hmem, p, d, hsp, he⟩
  exact ⟨ds, e, hds, hx, hid⟩

/-- **C40 (no invention).** Conversely whatever is listed has a file with its name in an issuer directory. -/
theorem C40_listed_bin_exists (dirs : List DirEntry) (out : List IssuerDates) (h : listStorageBins dirs = some out)
    (j : Text) (ds : List ExpDate) (x : ExpDate) (hj : (j, ds) ∈ out) (hx : x ∈ ds) :
    ∃ dir ∈ dirs, dir.isDir = true ∧ (∃ i, dir.name = "issuer::".toList ++ i) ∧ ∃ f ∈ dir.files, ∃ d, Split f ["serials".toList, d, j] ∧ newExpDate d = some x := by
  obtain ⟨_, _, hiff⟩ := C40_listing_exact _ out h
  obtain ⟨name, hm, p, d, hsp, hd⟩ := (hiff j x).1 ⟨ds, hj, hx⟩
  unfold storageNames at hm
  rw [List.mem_flatMap] at hm
  obtain ⟨dir, hdir, hf⟩ := hm
  obtain ⟨hd1, hd2⟩ := List.mem_filter.1 hdir
  obtain ⟨hf1, hf2⟩ := List.mem_filter.1 hf
  rw [Bool.and_eq_true] at hd2
  obtain ⟨i, hi⟩ := hasPrefix_iff.1 hd2.2
  obtain ⟨r, hr⟩ := hasPrefix_iff.1 hf2
  have hp : p = "serials".toList := by
    have k := splitColons_part "serials".toList r [] (by decide)
    rw [show "serials".toList ++ ':' :: ':' :: r = name by rw [hr]; rfl, (splitColons_iff _ _).2 hsp] at k
    exact (List.cons.inj k).1
  subst hp
  exact ⟨dir, hd1, hd2.1, ⟨i, hi⟩, name, hf1, d, hsp, hd⟩

example : listStorageBins [⟨"issuer::AQID".toList, true, ["serials::2023-11-14-22::AQID".toList, "tmp".toList]⟩,
    ⟨"junk".toList, true, ["x".toList]⟩] = some [("AQID".toList, [⟨1699999200, 1700002799999, true⟩])] := by
  decide +kernel

/-! ### each theorem applied -/

example := C09_bin_name_roundtrip 1700000000 [1, 2, 3] (by decide) (by decide)
example := C09_bin_name_injective (newExpDateFromTime 1700000000) (newExpDateFromTime 1700000001) [1, 2, 3] [1, 2, 3] (by decide +kernel)
example := C09_handle_injective (newExpDateFromTime 1700000000) (newExpDateFromTime 1700000001) (List.replicate 32 7) (List.replicate 32 7) (by decide) (by decide) (by decide +kernel)
example (r : LogKV) := C14_other_logs_untouched r (brandNew "a".toList) "b".toList (by rw [← trimSlashes_eq_iff]; decide)

/-- A state under its old name. -/
def oldKV : LogKV := fun k => if k = "log::a/".toList then some (some (brandNew "a/".toList)) else none

theorem oldKV_well : WellKeyed oldKV := by
  intro k log h
  unfold oldKV at h
  split at h
  · rename_i hk; cases h; right; rw [hk]; decide
  · cases h

/-- An old name with something under it that cannot be read. -/
def badKV : LogKV := fun k => if k = "log::a/".toList then some none else none

example : loadLogState (migrate oldKV "a".toList "/".toList) "a".toList = newestState oldKV "a".toList := C39_migrate_keeps oldKV oldKV_well "a".toList "/".toList (by decide)
example := C39_error_no_change badKV "a".toList "/".toList (by decide)
example : migrate oldKV "a".toList "/".toList "log::b".toList = oldKV "log::b".toList := C39_other_keys_untouched oldKV oldKV_well "a".toList "/".toList "log::b".toList (by decide) (by decide)
example := C39_crash_then_rerun oldKV oldKV_well "a".toList "/".toList _ rfl 1
example := C39_idempotent oldKV oldKV_well "a".toList "/".toList
example := C40_listing_exact ["serials::2023-11-14-22::AQID".toList, "serials::2023-11-14-23::AQID".toList] [("AQID".toList, [⟨1699999200, 1700002799999, true⟩, ⟨1700002800, 1700006399999, true⟩])] (by decide +kernel)
example : [(⟨1699999200, 1700002799999, true⟩ : ExpDate), ⟨1700002800, 1700006399999, true⟩] = ["serials::2023-11-14-22::AQID".toList, "serials::2023-11-14-23::AQID".toList].filterMap (binOf "AQID".toList) :=
  C40_listing_counts ["serials::2023-11-14-22::AQID".toList, "serials::2023-11-14-23::AQID".toList] _ (show _ = some [("AQID".toList, [⟨1699999200, 1700002799999, true⟩, ⟨1700002800, 1700006399999, true⟩])] by decide +kernel)
    "AQID".toList _ List.mem_cons_self
example := C40_stored_bin_listed [⟨"issuer::AQID".toList, true, ["serials::2023-11-14-22::AQID".toList]⟩] _ (show _ = some [("AQID".toList, [(⟨1699999200, 1700002799999, true⟩ : ExpDate)])] by decide +kernel)
  1700000000 [1, 2, 3] (by decide) (by decide) _ List.mem_cons_self rfl (by decide +kernel) (by decide +kernel)

end Verif.Props
