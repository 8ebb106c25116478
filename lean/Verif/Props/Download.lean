import Verif.Model.Download
import Verif.Spec.Download
import Verif.Lemmas.Text
/-!
Properties C48, C49, C50, C55, C76 and C77: downloading CRLs.
-/
namespace Verif.Props
open Verif.Spec

/-! ### C50: retries -/

/-- The file before attempt `n`. -/
def fileBefore (attempts : Nat → DlAttempt) (file : Option LocalFile) : Nat → Option LocalFile
  | 0 => file
  | n + 1 => (downloadOnce (fileBefore attempts file n) (attempts n)).1

/-- DlAttempt `n` succeeds. -/
def Succeeds (attempts : Nat → DlAttempt) (file : Option LocalFile) (n : Nat) : Prop :=
  (downloadOnce (fileBefore attempts file n) (attempts n)).2 = true

theorem dlLoop_spec (attempts : Nat → DlAttempt) (cancelled : Nat → Bool) (file : Option LocalFile) (left : Nat) : ∀ i,
    (dlLoop attempts cancelled left i (fileBefore attempts file i)).2.1 = fileBefore attempts file (dlLoop attempts cancelled left i (fileBefore attempts file i)).2.2 ∧
    ((dlLoop attempts cancelled left i (fileBefore attempts file i)).1 = .failed ∧
        (dlLoop attempts cancelled left i (fileBefore attempts file i)).2.2 = i + left ∧
        (∀ j, i ≤ j → j < i + left → cancelled j = false ∧ ¬ Succeeds attempts file j) ∨
     ∃ n, i ≤ n ∧ n < i + left ∧ (∀ j, i ≤ j → j < n → cancelled j = false ∧ ¬ Succeeds attempts file j) ∧
      ((dlLoop attempts cancelled left i (fileBefore attempts file i)).1 = .cancelled ∧ cancelled n = true ∧
          (dlLoop attempts cancelled left i (fileBefore attempts file i)).2.2 = n ∨
       (dlLoop attempts cancelled left i (fileBefore attempts file i)).1 = .ok ∧ cancelled n = false ∧ Succeeds attempts file n ∧
          (dlLoop attempts cancelled left i (fileBefore attempts file i)).2.2 = n + 1)) := by
  induction left with
  | zero =>
    intro i
    unfold dlLoop
    exact ⟨rfl, Or.inl ⟨rfl, rfl, fun j h1 h2 => by omega⟩⟩
  | succ left ih =>
    intro i
    unfold dlLoop
    by_cases hc : cancelled i = true
    · rw [if_pos hc]
      exact ⟨rfl, Or.inr ⟨i, Nat.le_refl _, by omega, fun j h1 h2 => by omega, Or.inl ⟨rfl, hc, rfl⟩⟩⟩
    · rw [if_neg hc]
      have hc' : cancelled i = false := by simpa using hc
      by_cases hs : (downloadOnce (fileBefore attempts file i) (attempts i)).2 = true
      · rw [if_pos hs]
        exact ⟨rfl, Or.inr ⟨i, Nat.le_refl _, by omega, fun j h1 h2 => by omega, Or.inr ⟨rfl, hc', hs, rfl⟩⟩⟩
      · rw [if_neg hs]
        have := ih (i + 1)
        rw [show fileBefore attempts file (i + 1) = (downloadOnce (fileBefore attempts file i) (attempts i)).1 from rfl] at this
        obtain ⟨h1, h2⟩ := this
        refine ⟨h1, ?_⟩
        have ext : ∀ n, (∀ j, i + 1 ≤ j → j < n → cancelled j = false ∧ ¬ Succeeds attempts file j) → ∀ j, i ≤ j → j < n → cancelled j = false ∧ ¬ Succeeds attempts file j := by
          intro n hn j hj1 hj2
          by_cases e : j = i
          · subst e; exact ⟨hc', hs⟩
          · exact hn j (by omega) hj2
        rcases h2 with ⟨g1, g2, g3⟩ | ⟨n, g1, g2, g3, g4⟩
        · refine Or.inl ⟨g1, by omega, ?_⟩
          have := ext (i + 1 + left) g3
          intro j hj1 hj2
          exact this j hj1 (by omega)
        · exact Or.inr ⟨n, by omega, by omega, ext n g3, g4⟩

/-- **C50.** At most `maxRetries + 1` attempts are made. -/
theorem C50_bounded (attempts : Nat → DlAttempt) (cancelled : Nat → Bool) (maxRetries : Nat) (file : Option LocalFile) :
    (downloadFileSync attempts cancelled maxRetries file).2.2 ≤ maxRetries + 1 := by
  rcases (dlLoop_spec attempts cancelled file (maxRetries + 1) 0).2 with ⟨_, h, _⟩ | ⟨n, _, h1, _, ⟨_, _, h⟩ | ⟨_, _, _, h⟩⟩ <;>
  · unfold downloadFileSync
    rw [show file = fileBefore attempts file 0 from rfl, h]
    omega

/-- **C50.** An error is returned iff all `maxRetries + 1` attempts were made and failed. -/
theorem C50_error_iff (attempts : Nat → DlAttempt) (cancelled : Nat → Bool) (maxRetries : Nat) (file : Option LocalFile) :
    (downloadFileSync attempts cancelled maxRetries file).1 = .failed ↔ ∀ j ≤ maxRetries, cancelled j = false ∧ ¬ Succeeds attempts file j := by
  have h := (dlLoop_spec attempts cancelled file (maxRetries + 1) 0).2
  unfold downloadFileSync
  rw [show file = fileBefore attempts file 0 from rfl]
  rcases h with ⟨g1, _, g3⟩ | ⟨n, _, g2, g3, ⟨e1, e2, _⟩ | ⟨e1, e2, e3, _⟩⟩
  · rw [g1]
    exact ⟨fun _ j hj => g3 j (by omega) (by omega), fun _ => rfl⟩
  · rw [e1]
    refine ⟨(fun h => by cases h), fun h => ?_⟩
    rw [(h n (by omega)).1] at e2
    cases e2
  · rw [e1]
    exact ⟨(fun h => by cases h), fun h => absurd e3 (h n (by omega)).2⟩

/-- **C50.** It stops at the first success: it returns success after `n + 1` attempts iff attempt `n` succeeds, none before did, and the context was not cancelled meanwhile. -/
theorem C50_ok_iff (attempts : Nat → DlAttempt) (cancelled : Nat → Bool) (maxRetries n : Nat) (file : Option LocalFile) :
    ((downloadFileSync attempts cancelled maxRetries file).1 = .ok ∧ (downloadFileSync attempts cancelled maxRetries file).2.2 = n + 1) ↔
      n ≤ maxRetries ∧ Succeeds attempts file n ∧ (∀ j < n, ¬ Succeeds attempts file j) ∧ ∀ j ≤ n, cancelled j = false := by
  have h := (dlLoop_spec attempts cancelled file (maxRetries + 1) 0).2
  unfold downloadFileSync
  rw [show file = fileBefore attempts file 0 from rfl]
  rcases h with ⟨g1, _, g3⟩ | ⟨m, _, g2, g3, ⟨e1, e2, _⟩ | ⟨e1, e2, e3, e4⟩⟩
  · rw [g1]
    refine ⟨(fun h => by cases h.1), fun h => ?_⟩
    exact absurd h.2.1 (g3 n (by omega) (by omega)).2
  · rw [e1]
    refine ⟨(fun h => by cases h.1), fun ⟨h1, h2, h3, h4⟩ => ?_⟩
    by_cases hm : m ≤ n
    · rw [h4 m hm] at e2; cases e2
    · exact absurd h2 (g3 n (by omega) (by omega)).2
  · rw [e1, e4]
    constructor
    · rintro ⟨_, hn⟩
      have : m = n := by omega
      subst this
      exact ⟨by omega, e3, fun j hj => (g3 j (by omega) hj).2, fun j hj => by
        by_cases e : j = m
        · rw [e]; exact e2
        · exact (g3 j (by omega) (by omega)).1⟩
    · rintro ⟨h1, h2, h3, h4⟩
      refine ⟨rfl, ?_⟩
      have : ¬ m < n := fun hlt => h3 m hlt e3
      have : ¬ n < m := fun hlt => (g3 n (by omega) hlt).2 h2
      omega

/-- **C50.** A cancelled download returns without error: the caller cannot tell it from a success, and the file may be incomplete. -/
theorem C50_cancelled_iff (attempts : Nat → DlAttempt) (cancelled : Nat → Bool) (maxRetries : Nat) (file : Option LocalFile) :
    (downloadFileSync attempts cancelled maxRetries file).1 = .cancelled ↔
      ∃ n ≤ maxRetries, cancelled n = true ∧ ∀ j < n, cancelled j = false ∧ ¬ Succeeds attempts file j := by
  have h := (dlLoop_spec attempts cancelled file (maxRetries + 1) 0).2
  unfold downloadFileSync
  rw [show file = fileBefore attempts file 0 from rfl]
  rcases h with ⟨g1, _, g3⟩ | ⟨m, _, g2, g3, ⟨e1, e2, _⟩ | ⟨e1, e2, e3, e4⟩⟩
  · rw [g1]
    refine ⟨(fun h => by cases h), ?_⟩
    rintro ⟨n, h1, h2, _⟩
    rw [(g3 n (by omega) (by omega)).1] at h2
    cases h2
  · rw [e1]
    exact ⟨fun _ => ⟨m, by omega, e2, fun j hj => g3 j (by omega) hj⟩, fun _ => rfl⟩
  · rw [e1]
    refine ⟨(fun h => by cases h), ?_⟩
    rintro ⟨n, h1, h2, h3⟩
    have : ¬ n < m := fun hlt => by rw [(g3 n (by omega) hlt).1] at h2; cases h2
    have : ¬ m < n := fun hlt => (h3 m hlt).2 e3
    have : m = n := by omega
    subst this
    rw [e2] at h2
    cases h2

/-- Attempts of each kind: the first two fail, the third succeeds. -/
def exAttempts (n : Nat) : DlAttempt :=
  if n = 0 then ⟨none, .fails, true, false, 10⟩
  else if n = 1 then ⟨none, .ok200 [1, 2] false none, true, false, 11⟩
  else ⟨some ⟨some 5, some 4, true⟩, .partial206 [3, 4] true (some 5), true, false, 12⟩

example : downloadFileSync exAttempts (fun _ => false) 3 none = (.ok, some ⟨[1, 2, 3, 4], 5⟩, 3) ∧
    (downloadFileSync exAttempts (fun _ => false) 1 none).1 = .failed ∧ (downloadFileSync exAttempts (fun n => decide (n = 1)) 3 none).1 = .cancelled := by
  decide

/-! ### C49: resumed downloads -/

/-- The GET answer of a server whose file is `content`, to a request sent when the local file was `file`: what arrives is the beginning of what was asked for, all of it if the body is complete; and a part is
only sent when a part was asked for. -/
def HonestGet (content : Bytes) (file : Option LocalFile) (resumed : Prop) : GetOut → Prop
  | .fails => True
  | .other => True
  | .ok200 body complete _ => body <+: content ∧ (complete = true → body = content)
  | .partial206 body complete _ => resumed ∧ ∀ f, file = some f →
      body <+: content.drop f.data.length ∧ (complete = true → body = content.drop f.data.length)

/-- The server's file is `content` during the attempt. -/
def HonestDl (content : Bytes) (file : Option LocalFile) (a : DlAttempt) : Prop :=
  (∀ h, a.head = some h → ∀ n, h.length = some n → n = content.length) ∧
  HonestGet content file (determineAction file a.head = .resume) a.get

/-- The local file is a beginning of `content`. -/
def PrefixFile (content : Bytes) (file : Option LocalFile) : Prop := ∀ f, file = some f → f.data <+: content

theorem determineAction_upToDate {file : Option LocalFile} {head : Option HeadInfo} (h : determineAction file head = .upToDate) :
    ∃ f hd, file = some f ∧ head = some hd ∧ hd.length = some (f.data.length : Int) := by
  unfold determineAction at h
  split at h
  · cases h
  · rename_i f
    split at h
    · cases h
    · rename_i hd
      split at h
      · rename_i lm sz h1 h2
        split at h
        · cases h
        · split at h
          · rename_i e
            exact ⟨f, hd, rfl, rfl, e ▸ h2⟩
          · split at h <;> cases h
      · cases h

theorem copyBody_data (base body : Bytes) (complete : Bool) (lm : Option Int) (now : Int) :
    ∃ m, copyBody base body complete lm now = (some { data := base ++ body, mtime := m }, complete) := by
  unfold copyBody
  cases complete with
  | false => exact ⟨now, rfl⟩
  | true =>
    cases lm with
    | none => exact ⟨now, rfl⟩
    | some m => exact ⟨m, rfl⟩

theorem prefix_append_drop {a b content : Bytes} (h1 : a <+: content) (h2 : b <+: content.drop a.length) : a ++ b <+: content := by
  obtain ⟨r, rfl⟩ := h1
  rw [List.drop_left] at h2
  exact (List.prefix_append_right_inj a).2 h2

theorem honest_step (content : Bytes) (file : Option LocalFile) (a : DlAttempt) (hp : PrefixFile content file) (ha : HonestDl content file a) :
    PrefixFile content (downloadOnce file a).1 ∧ ((downloadOnce file a).2 = true → ∃ f, (downloadOnce file a).1 = some f ∧ f.data = content) := by
  unfold downloadOnce
  by_cases hu : determineAction file a.head = .upToDate
  · rw [if_pos hu]
    refine ⟨hp, fun _ => ?_⟩
    obtain ⟨f, hd, e1, e2, e3⟩ := determineAction_upToDate hu
    refine ⟨f, e1, ?_⟩
    have hlen := ha.1 hd e2 _ e3
    exact (hp f e1).eq_of_length (by omega)
  · rw [if_neg hu]
    have hg := ha.2
    cases hget : a.get with
    | fails => exact ⟨hp, (fun h => by cases h)⟩
    | other => exact ⟨hp, (fun h => by cases h)⟩
    | partial206 body complete lm =>
      rw [hget] at hg
      dsimp only
      cases file with
      | none => exact ⟨(fun f e => by cases e), (fun h => by cases h)⟩
      | some f =>
        dsimp only
        obtain ⟨g1, g2⟩ := hg.2 f rfl
        split
        · exact ⟨hp, (fun h => by cases h)⟩
        · split
          · exact ⟨hp, (fun h => by cases h)⟩
          · obtain ⟨m, hm⟩ := copyBody_data f.data body complete lm a.now
            rw [hm]
            refine ⟨?_, fun hc => ⟨_, rfl, ?_⟩⟩
            · intro f' e
              cases e
              exact prefix_append_drop (hp f rfl) g1
            · dsimp only at hc ⊢
              rw [g2 hc]
              obtain ⟨r, hr⟩ := hp f rfl
              rw [← hr, List.drop_left]
    | ok200 body complete lm =>
      rw [hget] at hg
      dsimp only
      split
      · exact ⟨hp, (fun h => by cases h)⟩
      · split
        · exact ⟨(fun f e => by cases e; exact List.nil_prefix), (fun h => by cases h)⟩
        · obtain ⟨m, hm⟩ := copyBody_data [] body complete lm a.now
          rw [hm]
          refine ⟨?_, fun hc => ⟨_, rfl, ?_⟩⟩
          · intro f' e
            cases e
            exact hg.1
          · exact hg.2 hc

/-- **C49.** The server's file is `content` during the whole download, and the local file was absent or a beginning of `content`. Then after any sequence of attempts, interrupted anywhere, that ends
with a success the local file equals `content`. -/
theorem C49_resume (content : Bytes) (attempts : Nat → DlAttempt) (cancelled : Nat → Bool) (maxRetries : Nat) (file : Option LocalFile)
    (hp : PrefixFile content file) (hs : ∀ i ≤ maxRetries, HonestDl content (fileBefore attempts file i) (attempts i))
    (hok : (downloadFileSync attempts cancelled maxRetries file).1 = .ok) :
    ∃ f, (downloadFileSync attempts cancelled maxRetries file).2.1 = some f ∧ f.data = content := by
  have hall : ∀ i, i ≤ maxRetries + 1 → PrefixFile content (fileBefore attempts file i) := by
    intro i
    induction i with
    | zero => intro _; exact hp
    | succ i ih => intro hi; exact (honest_step content _ _ (ih (by omega)) (hs i (by omega))).1
  obtain ⟨h1, h2⟩ := dlLoop_spec attempts cancelled file (maxRetries + 1) 0
  unfold downloadFileSync at hok ⊢
  rw [show file = fileBefore attempts file 0 from rfl] at hok ⊢
  rw [h1]
  rcases h2 with ⟨g1, _⟩ | ⟨n, _, g2, _, ⟨e1, _⟩ | ⟨_, _, e3, e4⟩⟩
  · rw [g1] at hok; cases hok
  · rw [e1] at hok; cases hok
  · rw [e4]
    exact (honest_step content _ _ (hall n (by omega)) (hs n (by omega))).2 e3

/-- Without success the file is still a beginning of the server's file. -/
theorem C49_prefix (content : Bytes) (attempts : Nat → DlAttempt) (file : Option LocalFile) (hp : PrefixFile content file)
    (hs : ∀ i, HonestDl content (fileBefore attempts file i) (attempts i)) (n : Nat) : PrefixFile content (fileBefore attempts file n) := by
  induction n with
  | zero => exact hp
  | succ i ih => exact (honest_step content _ _ ih (hs i)).1

/-- The example above: the first attempt fails, the second is interrupted after two bytes, the third resumes. -/
theorem exAttempts_honest : ∀ i ≤ 2, HonestDl [1, 2, 3, 4] (fileBefore exAttempts none i) (exAttempts i) := by
  intro i hi
  have h3 : i = 0 ∨ i = 1 ∨ i = 2 := by omega
  rcases h3 with rfl | rfl | rfl
  · exact ⟨(fun h e => by cases e), trivial⟩
  · exact ⟨(fun h e => by cases e), by simp [exAttempts, HonestGet]⟩
  · refine ⟨?_, by decide, ?_⟩
    · intro h e n hn
      simp only [exAttempts] at e
      cases e
      cases hn
      rfl
    · intro f e
      cases e
      exact ⟨⟨[], by decide⟩, fun _ => by decide⟩

example : (downloadFileSync exAttempts (fun _ => false) 2 none).1 = .ok ∧ (downloadFileSync exAttempts (fun _ => false) 2 none).2.2 = 3 := by decide

example := C49_resume [1, 2, 3, 4] exAttempts (fun _ => false) 2 none (fun _ h => by cases h) exAttempts_honest (by decide)

/-- The condition on the local file is needed: a file left by a process that was killed, from an earlier version on the server, is continued with the new version. (The verification of
C48 then rejects the mixture.) -/
theorem C49_stale_file_fails :
    ∃ (content : Bytes) (file : LocalFile) (a : DlAttempt), HonestDl content (some file) a ∧ (downloadOnce (some file) a).2 = true ∧
      ∃ f, (downloadOnce (some file) a).1 = some f ∧ f.data ≠ content := by
  refine ⟨[1, 2, 3, 4], ⟨[9, 9], 7⟩, ⟨some ⟨some 5, some 4, true⟩, .partial206 [3, 4] true (some 5), true, false, 12⟩, ⟨?_, by decide, ?_⟩, by decide, _, rfl, by decide⟩
  · intro h e n hn
    cases e
    cases hn
    rfl
  · intro f e
    cases e
    exact ⟨⟨[], by decide⟩, fun _ => by decide⟩

/-! ### C76: resuming makes progress -/

theorem server_never_resumes (content : Bytes) (cut : Nat) (lastMod now : Int) (hc : cut < content.length) (file : Option LocalFile)
    (hf : file = none ∨ ∃ m, file = some { data := content.take cut, mtime := m }) :
    ∃ m, downloadOnce file (serverAttempt rangeHeaders content cut lastMod now file) = (some { data := content.take cut, mtime := m }, false) := by
  unfold downloadOnce
  rw [if_neg]
  · refine ⟨now, ?_⟩
    have hd : decide (content.length ≤ cut) = false := by simp [hc]
    have hget : (serverAttempt rangeHeaders content cut lastMod now file).get = .ok200 (content.take cut) false (some lastMod) := by
      rw [← hd]
      rfl
    rw [hget]
    rfl
  · intro hu
    obtain ⟨f, hd, e1, e2, e3⟩ := determineAction_upToDate hu
    simp only [serverAttempt, Option.some.injEq] at e2
    subst e2
    dsimp only at e3
    have e3 := Option.some.inj e3
    rcases hf with rfl | ⟨m, rfl⟩
    · cases e1
    · cases e1
      simp only [List.length_take] at e3
      omega

/-- **C76 fails.** The request to resume carries the header `Content-Range` where HTTP has `Range`. A server that honours ranges sends the whole file again; if the connection breaks after `cut` bytes each time,
no number of attempts brings more than `cut` bytes. -/
theorem C76_never_resumes_fails (content : Bytes) (cut : Nat) (lastMod now : Int) (hc : cut < content.length) (n : Nat) :
    (serverLoop rangeHeaders content cut lastMod now n none).2 = false ∧
    ∀ f, (serverLoop rangeHeaders content cut lastMod now n none).1 = some f → f.data = content.take cut := by
  have key : ∀ n file, (file = none ∨ ∃ m, file = some { data := content.take cut, mtime := m }) →
      (serverLoop rangeHeaders content cut lastMod now n file).2 = false ∧
      ∀ f, (serverLoop rangeHeaders content cut lastMod now n file).1 = some f → f.data = content.take cut := by
    intro n
    induction n with
    | zero =>
      intro file hf
      refine ⟨rfl, fun f e => ?_⟩
      unfold serverLoop at e
      rcases hf with rfl | ⟨m, rfl⟩
      · cases e
      · cases e; rfl
    | succ n ih =>
      intro file hf
      obtain ⟨m, hm⟩ := server_never_resumes content cut lastMod now hc file hf
      unfold serverLoop
      rw [hm]
      exact ih _ (Or.inr ⟨m, rfl⟩)
  exact key n none (Or.inl rfl)

/-- With the header `Range` three attempts would do for a file three times as long: this is the progress that C76 asks for. -/
theorem C76_range_header_would_resume :
    serverLoop (fun a off => { range := if a = .resume then some off else none, contentRange := none }) [1, 2, 3, 4, 5, 6] 2 5 10 3 none = (some ⟨[1, 2, 3, 4, 5, 6], 5⟩, true) ∧
    serverLoop rangeHeaders [1, 2, 3, 4, 5, 6] 2 5 10 3 none = (some ⟨[1, 2], 10⟩, false) := by decide

/-! ### C48: verified downloads -/

/-- **C48.** At every step, so also after a crash, the final file is the old one or one that passed the verification. -/
theorem C48_only_verified (valid : Bytes → Bool) (d : TwoFiles) (dl : List (Option LocalFile)) (dlOK renames removes : Bool) (s : TwoFiles)
    (hs : s ∈ (verifyingDownload valid d dl dlOK renames removes).1) :
    s.final = d.final ∨ ∃ f, s.final = some f ∧ valid f.data = true := by
  have hdur : ∀ s ∈ dl.map (fun t => ({ d with tmp := t } : TwoFiles)), s.final = d.final := by
    intro s hs
    obtain ⟨t, _, rfl⟩ := List.mem_map.1 hs
    rfl
  unfold verifyingDownload at hs
  dsimp only at hs
  split at hs
  · rcases List.mem_append.1 hs with h | h
    · exact Or.inl (hdur s h)
    · rw [List.mem_singleton.1 h]; exact Or.inl rfl
  · split at hs
    · rcases List.mem_append.1 hs with h | h
      · exact Or.inl (hdur s h)
      · rw [List.mem_singleton.1 h]; exact Or.inl rfl
    · rename_i hv
      split at hs
      · rcases List.mem_append.1 hs with h | h
        · exact Or.inl (hdur s h)
        · rw [List.mem_singleton.1 h]; exact Or.inl rfl
      · rcases List.mem_append.1 hs with h | h
        · exact Or.inl (hdur s h)
        · rw [List.mem_singleton.1 h]
          refine Or.inr ?_
          dsimp only
          unfold validFile at hv
          cases ht : (dl.getLast?).getD d.tmp with
          | none => rw [ht] at hv; simp at hv
          | some f => rw [ht] at hv; exact ⟨f, rfl, by simpa using hv⟩

theorem verifying_last (valid : Bytes → Bool) (d : TwoFiles) (dl : List (Option LocalFile)) (dlOK renames removes : Bool) :
    ∃ s, (verifyingDownload valid d dl dlOK renames removes).1.getLast? = some s ∧
      ((verifyingDownload valid d dl dlOK renames removes).2.1 = true ↔ ∃ f, s.final = some f ∧ valid f.data = true) ∧
      (removes = true → s.tmp = none) ∧ ((verifyingDownload valid d dl dlOK renames removes).2.2 = true → s.final = d.final) := by
  have hval : ∀ f, validFile valid f = true ↔ ∃ g, f = some g ∧ valid g.data = true := by
    intro f
    unfold validFile
    cases f with
    | none => simp
    | some g => simp
  unfold verifyingDownload
  dsimp only
  split
  · exact ⟨_, List.getLast?_concat, hval _, (fun h => by dsimp only; rw [if_pos h]), (fun _ => rfl)⟩
  · split
    · exact ⟨_, List.getLast?_concat, hval _, (fun h => by dsimp only; rw [if_pos h]), (fun _ => rfl)⟩
    · rename_i hv
      split
      · exact ⟨_, List.getLast?_concat, hval _, (fun h => by dsimp only; rw [if_pos h]), (fun _ => rfl)⟩
      · refine ⟨_, List.getLast?_concat, ?_, (fun _ => rfl), (fun h => by cases h)⟩
        dsimp only
        rw [← hval]
        simpa using hv

/-- **C48.** At the end the call reports an acceptable file iff the final file is valid; the temporary file is gone, if it can be removed; and if an error is returned the final file was not touched. -/
theorem C48_result (valid : Bytes → Bool) (d : TwoFiles) (dl : List (Option LocalFile)) (dlOK renames removes : Bool) :
    ∃ s, (verifyingDownload valid d dl dlOK renames removes).1.getLast? = some s ∧
      ((verifyingDownload valid d dl dlOK renames removes).2.1 = true ↔ ∃ f, s.final = some f ∧ valid f.data = true) ∧
      (removes = true → s.tmp = none) ∧ ((verifyingDownload valid d dl dlOK renames removes).2.2 = true → s.final = d.final) :=
  verifying_last valid d dl dlOK renames removes

/-- A download that is rejected, one that is accepted. -/
example : (verifyingDownload (fun b => decide (b = [1])) ⟨some ⟨[1], 0⟩, none⟩ [some ⟨[], 1⟩, some ⟨[2], 1⟩] true true true).2 = (true, true) ∧
    verifyingDownload (fun b => decide (b = [1])) ⟨none, none⟩ [some ⟨[1], 1⟩] true true true = ([⟨none, some ⟨[1], 1⟩⟩, ⟨some ⟨[1], 1⟩, none⟩], true, false) := by decide

/-! ### C77: no CRL is replaced by an older one -/

/-- `verifyCRL` would keep a CRL from being replaced by an older one: it accepts exactly a valid CRL for which there is no previous file, or a valid one that is not newer. -/
theorem C77_verifyCRL (new prev : Option Int) (noPrev : Bool) : verifyCRL new prev noPrev = true ↔ ∃ n, new = some n ∧ (noPrev = true ∨ ∃ p, prev = some p ∧ p ≤ n) := by
  unfold verifyCRL
  cases new with
  | none => exact ⟨(fun h => by cases h), (fun ⟨n, h, _⟩ => by cases h)⟩
  | some n =>
    cases noPrev with
    | true => exact ⟨fun _ => ⟨n, rfl, Or.inl rfl⟩, fun _ => rfl⟩
    | false =>
      cases prev with
      | none =>
        refine ⟨(fun h => by cases h), ?_⟩
        rintro ⟨_, _, h | ⟨_, h, _⟩⟩ <;> cases h
      | some p =>
        simp

example : verifyCRL (some 5) (some 5) false = true ∧ verifyCRL (some 4) (some 5) false = false ∧ verifyCRL (some 4) none true = true ∧ verifyCRL none (some 3) false = false := by decide

/-- **C77 fails.** But only the tests call `verifyCRL`. Both CRLs are validly signed (the first byte), the second byte is their date; the final file has date 9, the server, or whoever answers for it, sends the one of
date 3, and it replaces the newer one, without an error. -/
theorem C77_rollback_fails :
    let valid : Bytes → Bool := fun b => decide (b.head? = some 1)
    let date : Bytes → Option UInt8 := fun b => b[1]?
    (verifyingDownload valid ⟨some ⟨[1, 9], 90⟩, none⟩ [some ⟨[1, 3], 30⟩] true true true).1.getLast? = some ⟨some ⟨[1, 3], 30⟩, none⟩ ∧
    (verifyingDownload valid ⟨some ⟨[1, 9], 90⟩, none⟩ [some ⟨[1, 3], 30⟩] true true true).2 = (true, false) ∧
    date [1, 9] = some 9 ∧ date [1, 3] = some 3 := by decide

/-! ### C55: file names -/

theorem append_tail_eq {a b x y : Text} (h : a ++ x = b ++ y) (hl : x.length = y.length) : x = y := by
  have := congrArg List.reverse h
  rw [List.reverse_append, List.reverse_append] at this
  have := List.append_inj_left this (by simp [hl])
  exact List.reverse_inj.1 this

theorem hexEncode_len (b : Bytes) : (hexEncode b).length = 2 * b.length := by
  induction b with
  | nil => rfl
  | cons x xs ih =>
    unfold hexEncode
    simp only [List.length_cons, ih]
    omega

/-- **C55.** If the first eight bytes of the digests of the normal forms differ, so do the file names. -/
theorem C55_distinct (lower : Text → Text) (sha : Text → Bytes) (hlen : ∀ t, (sha t).length = 32) (u v : CrlUrl)
    (h : (sha u.norm).take 8 ≠ (sha v.norm).take 8) : makeFilenameFromUrl lower sha u ≠ makeFilenameFromUrl lower sha v := by
  intro e
  unfold makeFilenameFromUrl at e
  have hl : ∀ t, (hexEncode ((sha t).take 8)).length = 16 := by
    intro t
    rw [hexEncode_len, List.length_take, hlen]
    rfl
  have e1 := append_tail_eq e (by simp [hl])
  have e2 := (List.cons.inj e1).2
  exact h (hexEncode_injective (List.append_cancel_right e2))

theorem mem_trimSuffix {s t : Text} {c : Char} (h : c ∈ trimSuffix s t) : c ∈ t := by
  unfold trimSuffix at h
  split at h
  · exact List.mem_of_mem_take h
  · exact h

theorem legalPathChar_eq (c : Char) : legalPathChar c = decide (Allowed c) := by
  have key : legalPathChar c = true ↔ Allowed c := by
    simp only [legalPathChar, Allowed, Bool.or_eq_true, Bool.and_eq_true, decide_eq_true_eq, beq_iff_eq, or_assoc, Char.le_def, UInt32.le_iff_toNat_le]
    rfl
  cases h : legalPathChar c with
  | true => exact (decide_eq_true (key.1 h)).symm
  | false =>
    refine (decide_eq_false (fun ha => ?_)).symm
    rw [key.2 ha] at h
    cases h

/-- **C55.** A file name only contains letters, digits, '~', '-' and '.', so no path separator. -/
theorem C55_legal (lower : Text → Text) (sha : Text → Bytes) (u : CrlUrl) (c : Char) (hc : c ∈ makeFilenameFromUrl lower sha u) :
    Allowed c := by
  refine of_decide_eq_true ((legalPathChar_eq c).symm.trans ?_)
  unfold makeFilenameFromUrl readableName at hc
  dsimp only at hc
  rcases List.mem_append.1 hc with h | h
  · exact (List.mem_filter.1 (mem_trimSuffix h)).2
  · rcases List.mem_cons.1 h with rfl | h
    · decide
    · rcases List.mem_append.1 h with h | h
      · obtain ⟨n, hn, rfl⟩ := isHexChar_of_mem_hexEncode h
        have key : ∀ n < 16, legalPathChar (hexDigit n) = true := by decide
        exact key n hn
      · have key : ∀ c ∈ ['.', 'c', 'r', 'l'], legalPathChar c = true := by decide
        exact key c h

theorem takeBase_split (r : Text) : ∃ a, r = takeBase r ++ a ∧ '/' ∉ takeBase r ∧ (a = [] ∨ ∃ a', a = '/' :: a') := by
  induction r with
  | nil => exact ⟨[], rfl, (fun h => by cases h), .inl rfl⟩
  | cons c cs ih =>
    rw [takeBase]
    by_cases hc : c = '/'
    · rw [if_pos hc]
      exact ⟨c :: cs, rfl, (fun h => by cases h), .inr ⟨cs, by rw [hc]⟩⟩
    · rw [if_neg hc]
      obtain ⟨a, h1, h2, h3⟩ := ih
      refine ⟨a, by rw [List.cons_append, ← h1], ?_, h3⟩
      intro h
      rcases List.mem_cons.1 h with h | h
      · exact hc h.symm
      · exact h2 h

theorem dropSlash_split (r : Text) : ∃ s, r = s ++ r.dropWhile (fun c => c == '/') ∧ (∀ c ∈ s, c = '/') ∧ ∀ c t, r.dropWhile (fun c => c == '/') = c :: t → c ≠ '/' := by
  induction r with
  | nil => exact ⟨[], rfl, (fun c h => by cases h), fun c t h => by cases h⟩
  | cons c cs ih =>
    rw [List.dropWhile_cons]
    by_cases hc : c = '/'
    · subst hc
      rw [if_pos (by decide)]
      obtain ⟨s, h1, h2, h3⟩ := ih
      refine ⟨'/' :: s, by rw [List.cons_append, ← h1], ?_, h3⟩
      intro x hx
      rcases List.mem_cons.1 hx with h | h
      · exact h
      · exact h2 x h
    · rw [if_neg (by simpa using hc)]
      refine ⟨[], rfl, (fun c h => by cases h), ?_⟩
      intro x t h
      injection h with h1 h2
      rw [← h1]
      exact hc

theorem pathBase_last (p : Text) : LastPart p (pathBase p) := by
  unfold pathBase
  by_cases hp : p = []
  · rw [if_pos hp]
    exact .inl ⟨hp, rfl⟩
  · rw [if_neg hp]
    dsimp only
    obtain ⟨s, h1, h2, h3⟩ := dropSlash_split p.reverse
    generalize p.reverse.dropWhile (fun c => c == '/') = r at h1 h3
    have hpr : p = r.reverse ++ s.reverse := by
      have := congrArg List.reverse h1
      simpa using this
    by_cases hr : r = []
    · rw [if_pos hr]
      refine .inr (.inl ⟨hp, ?_, rfl⟩)
      intro c hc
      rw [hpr, hr] at hc
      exact h2 c (List.mem_reverse.1 (by simpa using hc))
    · rw [if_neg hr]
      obtain ⟨a, e1, e2, e3⟩ := takeBase_split r
      refine .inr (.inr ⟨a.reverse, s.reverse, ?_, ?_, ?_, ?_, ?_⟩)
      · rw [hpr]
        have : r.reverse = a.reverse ++ (takeBase r).reverse := by
          rw [← List.reverse_append, ← e1]
        rw [this]
      · intro h
        cases r with
        | nil => exact hr rfl
        | cons c t =>
          rw [takeBase, if_neg (h3 c t rfl)] at h
          simp at h
      · simpa using e2
      · intro c hc
        exact h2 c (List.mem_reverse.1 hc)
      · rcases e3 with rfl | ⟨a', rfl⟩
        · exact .inl rfl
        · exact .inr ⟨a'.reverse, by simp⟩

/-- **C55 (what the name says).** The file name begins with the host name, the last part of the path and the query, in lower case and without the characters that are not allowed; one ".crl" at the end of this is left out, and nothing else. -/
theorem C55_name (lower : Text → Text) (sha : Text → Bytes) (u : CrlUrl) : ∃ base last, LastPart u.path last ∧
    makeFilenameFromUrl lower sha u = base ++ '-' :: (hexEncode ((sha u.norm).take 8) ++ ['.', 'c', 'r', 'l']) ∧
    let full := (lower (u.hostname ++ '-' :: (last ++ if u.rawQuery = [] then [] else '-' :: u.rawQuery))).filter (fun c => decide (Allowed c))
    (full = base ++ ['.', 'c', 'r', 'l'] ∨ (full = base ∧ ∀ p, full ≠ p ++ ['.', 'c', 'r', 'l'])) := by
  refine ⟨readableName lower u, pathBase u.path, pathBase_last _, rfl, ?_⟩
  intro full
  have hfull : readableName lower u = trimSuffix ['.', 'c', 'r', 'l'] full := by
    unfold readableName
    dsimp only [full]
    rw [← (funext legalPathChar_eq : legalPathChar = fun c => decide (Allowed c))]
    cases hq : u.rawQuery with
    | nil => simp
    | cons c q => simp
  rw [hfull]
  unfold trimSuffix
  by_cases h : (['.', 'c', 'r', 'l'] : Text).reverse.isPrefixOf full.reverse = true
  · rw [if_pos h]
    left
    obtain ⟨p, hp⟩ := List.isPrefixOf_iff_prefix.mp h
    have : full = p.reverse ++ ['.', 'c', 'r', 'l'] := by
      have := congrArg List.reverse hp
      simpa using this.symm
    rw [this]
    simp
  · rw [if_neg h]
    refine .inr ⟨rfl, fun p hp => h ?_⟩
    rw [hp, List.isPrefixOf_iff_prefix]
    exact ⟨p.reverse, by simp⟩

/-- Two URLs, with and without the suffix. -/
example : readableName (fun t => t) ⟨"c.example".toList, "/a/b.crl".toList, [], []⟩ = "c.example-b".toList ∧ readableName (fun t => t) ⟨"c.example".toList, "/a/b.crl".toList, "x=1".toList, []⟩ = "c.example-b.crl-x1".toList := by
  decide +kernel
example := C55_name (fun t => t) (fun _ => List.replicate 32 7) ⟨"c.example".toList, "/a/b.crl".toList, [], []⟩

theorem C55_no_separator (lower : Text → Text) (sha : Text → Bytes) (u : CrlUrl) : '/' ∉ makeFilenameFromUrl lower sha u := by
  intro h
  have := C55_legal lower sha u '/' h
  revert this
  decide

/-- **C55.** The name of a temporary file (`finalPath` with ".tmp" appended, verifying-downloader.go:35) is never the name of another URL's file. -/
theorem C55_tmp_distinct (lower : Text → Text) (sha : Text → Bytes) (u v : CrlUrl) :
    makeFilenameFromUrl lower sha u ++ ['.', 't', 'm', 'p'] ≠ makeFilenameFromUrl lower sha v := by
  intro e
  unfold makeFilenameFromUrl at e
  have e1 : makeFilenameFromUrl lower sha u ++ ['.', 't', 'm', 'p'] = (readableName lower v ++ '-' :: hexEncode ((sha v.norm).take 8)) ++ ['.', 'c', 'r', 'l'] := by
    unfold makeFilenameFromUrl
    rw [e]
    simp
  have := append_tail_eq e1 rfl
  cases this

example : makeFilenameFromUrl (fun t => t) (fun _ => List.replicate 32 171) ⟨"crl.example.com".toList, "/a/b.crl".toList, [], []⟩ = "crl.example.com-b-abababababababab.crl".toList := by decide

/-- Nothing bounds the length: a URL whose last segment has 300 letters gets a name that is too long for a file (255 bytes on common file systems), so that its CRL cannot be stored. -/
theorem C55_too_long_fails (sha : Text → Bytes) :
    255 < (makeFilenameFromUrl (fun t => t) sha ⟨['h'], '/' :: List.replicate 300 'a', [], []⟩).length := by
  unfold makeFilenameFromUrl
  rw [List.length_append]
  have : 255 < (readableName (fun t => t) ⟨['h'], '/' :: List.replicate 300 'a', [], []⟩).length := by decide +kernel
  omega

/-! ### each theorem applied -/

example := C76_never_resumes_fails [1, 2, 3, 4] 2 10 20 (by decide) 5
example := C48_only_verified (fun b => decide (b = [1])) ⟨none, none⟩ [some ⟨[1], 1⟩] true true true ⟨some ⟨[1], 1⟩, none⟩ (by decide)
example := C55_distinct (fun t => t) (fun t => if t = ['u'] then List.replicate 32 1 else List.replicate 32 2) (fun t => by split <;> decide)
  ⟨"h".toList, "/a.crl".toList, [], ['u']⟩ ⟨"h".toList, "/a.crl".toList, [], ['v']⟩ (by decide)
example := C55_legal (fun t => t) (fun _ => List.replicate 32 171) ⟨"crl.example.com".toList, "/a/b.crl".toList, [], []⟩ 'b' (by decide)

end Verif.Props
