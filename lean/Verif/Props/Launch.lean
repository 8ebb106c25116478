import Verif.Spec.Launch
import Verif.Props.PublisherMain
/-!
Property C115: the scripts give each program the arguments meant for it, in the intended order, and the switches against uploading hold.
-/
namespace Verif.Props
open Verif.Spec

/-! ### words -/

theorem isIfs_iff (c : Char) : isIfs c = true ↔ Space c := by
  have h : ∀ d : Char, c = d ↔ c.toNat = d.toNat := fun d => ⟨fun e => by rw [e], fun e => Char.ext (UInt32.toNat.inj e)⟩
  simp only [isIfs, Space, Bool.or_eq_true, decide_eq_true_eq]
  rw [h ' ', h '\t', h '\n']
  show (_ = 32 ∨ _ = 9) ∨ _ = 10 ↔ _
  exact or_assoc

theorem wordsFrom_none (t : Text) : ∀ cur, (∀ c ∈ t, ¬ Space c) → wordsFrom cur t = if cur ++ t = [] then [] else [cur ++ t] := by
  induction t with
  | nil => intro cur _; simp [wordsFrom]
  | cons c t ih =>
    intro cur h
    have hc : isIfs c = false := by
      cases hi : isIfs c
      · rfl
      · exact absurd ((isIfs_iff c).1 hi) (h c (List.mem_cons_self ..))
    simp only [wordsFrom, hc, Bool.false_eq_true, if_false]
    rw [ih (cur ++ [c]) (fun d hd => h d (List.mem_cons_of_mem _ hd))]
    simp

theorem wordsFrom_append (s : Char) (hs : Space s) (b a : Text) : ∀ cur, wordsFrom cur (a ++ s :: b) = wordsFrom cur a ++ wordsFrom [] b := by
  have hs' := (isIfs_iff s).2 hs
  induction a with
  | nil =>
    intro cur
    by_cases hc : cur = [] <;> simp [wordsFrom, hs', hc]
  | cons c a ih =>
    intro cur
    cases hi : isIfs c
    · simp [wordsFrom, hi, ih]
    · by_cases hc : cur = [] <;> simp [wordsFrom, hi, hc, ih]

/-- A word without white space stays as it is, white space disappears, and on both sides of white space the text is split independently: together these determine the words of every text. -/
theorem C115_words :
    (∀ t : Text, t ≠ [] → (∀ c ∈ t, ¬ Space c) → words t = [t]) ∧ words [] = [] ∧
    (∀ (a b : Text) (s : Char), Space s → words (a ++ s :: b) = words a ++ words b) := by
  refine ⟨fun t h0 h => ?_, rfl, fun a b s hs => wordsFrom_append s hs b a []⟩
  have := wordsFrom_none t [] h
  simpa [words, h0] using this

example : words " two  words\n".toList = ["two".toList, "words".toList] := by decide +kernel
example : Space ' ' ∧ ∀ c ∈ "word".toList, ¬ Space c := ⟨by simp [Space], by simp [Space]⟩

theorem words_onlySpace (t : Text) (h : OnlySpace t) : words t = [] := by
  induction t with
  | nil => rfl
  | cons c t ih =>
    have := C115_words.2.2 [] t c (h c (List.mem_cons_self ..))
    rw [List.nil_append] at this
    rw [this, ih (fun d hd => h d (List.mem_cons_of_mem _ hd))]
    rfl

theorem words_plain {t : Text} (h : PlainWord t) : words t = [t] := C115_words.1 t h.nonempty h.noSpace

theorem looksOption_plain {t : Text} (h : t.head? ≠ some '-') : looksOption t = false := by
  cases t with
  | nil => rfl
  | cons c t =>
    have hc : c ≠ '-' := fun e => h (by rw [e]; rfl)
    unfold looksOption
    split
    · rename_i heq
      exact absurd (List.cons.inj heq).1 hc
    · rfl

/-! ### arguments -/

theorem argparse_pos {flags valued : List Text} {a : Text} (rest : List Text) (h : looksOption a = false) :
    argparse flags valued (a :: rest) = (argparse flags valued rest).map (fun r => (a :: r.1, r.2)) := by
  rw [argparse.eq_def]
  simp [h]

theorem argparse_val {flags valued : List Text} {o v : Text} (rest : List Text) (ho : looksOption o = true) (hf : flags.contains o = false) (hv : valued.contains o = true) (h : looksOption v = false) :
    argparse flags valued (o :: v :: rest) = (argparse flags valued rest).map (fun r => (r.1, (o, v) :: r.2)) := by
  rw [argparse.eq_def]
  simp only [ho, hf, hv, h, if_true, if_false, Bool.false_eq_true]

/-- An option that needs a value, followed by an option, is an error wherever it stands. -/
theorem argparse_missing {flags valued : List Text} {o v : Text} (ho : looksOption o = true) (hf : flags.contains o = false) (hv : looksOption v = true) (rest : List Text) :
    ∀ (n : Nat) (pre : List Text), pre.length ≤ n → argparse flags valued (pre ++ o :: v :: rest) = none := by
  intro n
  induction n with
  | zero =>
    intro pre hp
    have : pre = [] := List.length_eq_zero_iff.1 (by omega)
    subst this
    rw [argparse.eq_def]
    simp only [List.nil_append, ho, hf, hv, if_true, if_false, Bool.false_eq_true, ite_self]
  | succ n ih =>
    intro pre hp
    cases pre with
    | nil =>
      rw [argparse.eq_def]
      simp only [List.nil_append, ho, hf, hv, if_true, if_false, Bool.false_eq_true, ite_self]
    | cons a pre =>
      have hp' : pre.length ≤ n := by simpa using hp
      have e := ih pre hp'
      rw [argparse.eq_def]
      simp only [List.cons_append, e, Option.map_none]
      cases pre with
      | nil => simp [ho]
      | cons b pre =>
        have e2 := ih pre (by simp at hp'; omega)
        simp [e2]

theorem digit_iff (c : Char) : (decide ('0' ≤ c) && decide (c ≤ '9')) = true ↔ c ∈ "0123456789".toList := by
  constructor
  · intro h
    rw [Bool.and_eq_true, decide_eq_true_iff, decide_eq_true_iff] at h
    have h1 : 48 ≤ c.toNat := h.1
    have h2 : c.toNat ≤ 57 := h.2
    have e : c = Char.ofNat c.toNat := (Char.ofNat_toNat c).symm
    rw [e]
    have key : ∀ k, k < 10 → Char.ofNat (48 + k) ∈ "0123456789".toList := by decide
    have := key (c.toNat - 48) (by omega)
    rwa [show 48 + (c.toNat - 48) = c.toNat by omega] at this
  · have key : ∀ c ∈ "0123456789".toList, (decide ('0' ≤ c) && decide (c ≤ '9')) = true := by decide
    exact key c

theorem looksOption_iff (v : Text) : looksOption v = false ↔ IsValue v := by
  match v with
  | [] => exact ⟨fun _ => Or.inl (by simp), fun _ => rfl⟩
  | c :: r =>
    by_cases hc : c = '-'
    · subst hc
      cases r with
      | nil => exact ⟨fun _ => Or.inr (Or.inl rfl), fun _ => rfl⟩
      | cons d r =>
        show (!((d :: r).all (fun x => decide ('0' ≤ x) && decide (x ≤ '9')))) = false ↔ _
        rw [Bool.not_eq_false', List.all_eq_true]
        constructor
        · intro h
          exact Or.inr (Or.inr ⟨_, rfl, fun x hx => (digit_iff x).1 (h x hx)⟩)
        · rintro (h | h | ⟨e, h, he⟩) x hx
          · exact absurd rfl h
          · exact absurd (List.cons.inj h).2 (by simp)
          · rw [(List.cons.inj h).2] at hx
            exact (digit_iff x).2 (he x hx)
    · have hp : (c :: r).head? ≠ some '-' := fun e => hc (Option.some.inj e)
      exact ⟨fun _ => Or.inl hp, fun _ => looksOption_plain hp⟩

/-- Which words can be the value of an option: all but those that begin with a dash, unless they are the dash alone or a whole negative number. Words with a point (which may be numbers too) or a space (which the shell does not make) are
left out. -/
theorem C115_values (id v : Text) (hi : IsValue id) :
    (IsValue v → mlbfParse [id, "--filter-bucket".toList, v] = some ⟨id, v, none, none, none, none, none⟩) ∧
    (¬ IsValue v → '.' ∉ v → ' ' ∉ v → mlbfParse [id, "--filter-bucket".toList, v] = none) := by
  have hi' := (looksOption_iff id).2 hi
  constructor
  · intro h
    unfold mlbfParse
    rw [argparse_pos _ hi', argparse_val _ (by decide +kernel) (by decide +kernel) (by decide +kernel) ((looksOption_iff v).2 h)]
    rfl
  · intro h _ _
    have h' : looksOption v = true := by
      cases e : looksOption v with
      | true => rfl
      | false => exact absurd ((looksOption_iff v).1 e) h
    unfold mlbfParse
    have e := argparse_missing (flags := []) (valued := ["--nodiff".toList, "--filter-bucket".toList, "--statsd-host".toList, "--reason-set".toList, "--delta-reason-set".toList, "--filter-type".toList]) (o := "--filter-bucket".toList)
      (by decide +kernel) rfl h' [] 0 [] (Nat.le_refl _)
    rw [List.nil_append] at e
    rw [argparse_pos _ hi', e]
    rfl

example : mlbfParse ["20260101-0".toList, "--filter-bucket".toList, "-07".toList] = some ⟨"20260101-0".toList, "-07".toList, none, none, none, none, none⟩ :=
  (C115_values _ _ (Or.inl (by decide +kernel))).1 (Or.inr (Or.inr ⟨"07".toList, rfl, by decide +kernel⟩))
example : mlbfParse ["20260101-0".toList, "--filter-bucket".toList, "--reason-set".toList] = none :=
  (C115_values _ _ (Or.inl (by decide +kernel))).2 (fun h => absurd ((looksOption_iff _).2 h) (by decide +kernel)) (by decide +kernel) (by decide +kernel)

/-- A flag at the end is among the options whenever the arguments are accepted. -/
theorem argparse_last {flags valued : List Text} {o : Text} (ho : looksOption o = true) (hf : flags.contains o = true) :
    ∀ (n : Nat) (pre : List Text), pre.length ≤ n → ∀ r, argparse flags valued (pre ++ [o]) = some r → (o, []) ∈ r.2 := by
  have base : ∀ r, argparse flags valued ([] ++ [o]) = some r → (o, []) ∈ r.2 := by
    intro r h
    rw [argparse.eq_def] at h
    simp only [List.nil_append, ho, hf, if_true] at h
    rw [argparse.eq_def] at h
    simp at h
    subst h
    simp
  intro n
  induction n with
  | zero =>
    intro pre hp
    have : pre = [] := List.length_eq_zero_iff.1 (by omega)
    subst this
    exact base
  | succ n ih =>
    intro pre hp
    cases pre with
    | nil => exact base
    | cons a pre =>
      have hp' : pre.length ≤ n := by simpa using hp
      intro r h
      rw [argparse.eq_def] at h
      simp only [List.cons_append] at h
      have mapped : ∀ (f : List Text × List (Text × Text) → List Text × List (Text × Text)), (∀ q, ∀ x ∈ q.2, x ∈ (f q).2) → ∀ (p : List Text), p.length ≤ n →
          (argparse flags valued (p ++ [o])).map f = some r → (o, []) ∈ r.2 := by
        intro f hfm p hpl hm
        cases hq : argparse flags valued (p ++ [o]) with
        | none => rw [hq] at hm; simp at hm
        | some q =>
          rw [hq] at hm
          simp only [Option.map_some, Option.some.injEq] at hm
          subst hm
          exact hfm q _ (ih p hpl q hq)
      by_cases ha : looksOption a = true
      · by_cases hfa : flags.contains a = true
        · simp only [ha, hfa, if_true] at h
          exact mapped _ (fun q x hx => List.mem_cons_of_mem _ hx) pre hp' h
        · simp only [ha, hfa, if_true] at h
          by_cases hva : valued.contains a = true
          · simp only [hva, if_true] at h
            cases pre with
            | nil => simp [ho] at h
            | cons b pre =>
              simp only [List.cons_append] at h
              by_cases hb : looksOption b = true
              · simp [hb] at h
              · rw [if_neg hb] at h
                exact mapped _ (fun q x hx => List.mem_cons_of_mem _ hx) pre (by simp at hp'; omega) h
          · simp only [hva] at h
            simp at h
      · rw [if_neg ha] at h
        exact mapped (fun r => (a :: r.1, r.2)) (fun q x hx => hx) pre hp' h

theorem lastValue_isSome {name v : Text} {o : List (Text × Text)} (h : (name, v) ∈ o) : (lastValue name o).isSome = true := by
  unfold lastValue
  cases hg : (o.filter (fun x => decide (x.1 = name))).getLast? with
  | some x => rfl
  | none =>
    rw [List.getLast?_eq_none_iff] at hg
    have : (name, v) ∈ o.filter (fun x => decide (x.1 = name)) := List.mem_filter.2 ⟨h, by simp⟩
    rw [hg] at this
    simp at this

/-! ### `bash -e` -/

theorem runCmds_prefix (ok : Cmd → Bool) (cmds : List Cmd) : (runCmds ok cmds).1 <+: cmds := by
  induction cmds with
  | nil => exact List.prefix_refl _
  | cons c r ih =>
    simp only [runCmds]
    split
    · exact List.cons_prefix_cons.2 ⟨rfl, ih⟩
    · exact List.cons_prefix_cons.2 ⟨rfl, List.nil_prefix⟩

theorem runCmds_status (ok : Cmd → Bool) (cmds : List Cmd) : (runCmds ok cmds).2 = true ↔ ∀ c ∈ cmds, ok c = true := by
  induction cmds with
  | nil => simp [runCmds]
  | cons c r ih =>
    simp only [runCmds]
    split
    · rename_i h
      simp [ih, h]
    · rename_i h
      simp [h]

theorem runCmds_all (ok : Cmd → Bool) (cmds : List Cmd) (h : ∀ c ∈ cmds, ok c = true) : (runCmds ok cmds).1 = cmds := by
  induction cmds with
  | nil => rfl
  | cons c r ih =>
    simp only [runCmds, h c (List.mem_cons_self ..), if_true]
    rw [ih (fun d hd => h d (List.mem_cons_of_mem _ hd))]

/-- What follows a command that was started was preceded by successes only. -/
theorem runCmds_before (ok : Cmd → Bool) (pre : List Cmd) (post : List Cmd) (c : Cmd) (hc : c ∈ (runCmds ok (pre ++ post)).1) (hn : c ∉ pre) :
    (∀ d ∈ pre, ok d = true) ∧ ∀ d ∈ pre, d ∈ (runCmds ok (pre ++ post)).1 := by
  induction pre with
  | nil => simp
  | cons a pre ih =>
    simp only [List.cons_append, runCmds] at hc ⊢
    by_cases h : ok a = true
    · simp only [h, if_true] at hc ⊢
      have hca : c ≠ a := fun e => hn (by simp [e])
      have := ih ((List.mem_cons.1 hc).resolve_left hca) (fun hm => hn (List.mem_cons_of_mem _ hm))
      refine ⟨fun d hd => ?_, fun d hd => ?_⟩
      · rcases List.mem_cons.1 hd with rfl | hd
        · exact h
        · exact this.1 d hd
      · rcases List.mem_cons.1 hd with rfl | hd
        · exact List.mem_cons_self ..
        · exact List.mem_cons_of_mem _ (this.2 d hd)
    · simp only [h] at hc
      simp at hc
      exact absurd (by simp [hc]) hn

/-! ### the filters -/

theorem generateCmds_not (env : ShellEnv) (id : Text) (h : env.doNotUpload ≠ []) :
    generateCmds env id = [⟨.makeLog, []⟩, crlsCmd env id, knownCmd env id, ⟨.look, []⟩, mlbfCmd env id "all".toList, mlbfCmd env id "priority".toList, ⟨.df, []⟩] := by
  unfold generateCmds
  rw [if_neg h, if_neg h]
  rfl

theorem generateCmds_up (env : ShellEnv) (id : Text) (h : env.doNotUpload = []) :
    generateCmds env id = [⟨.makeLog, []⟩, crlsCmd env id, knownCmd env id, ⟨.look, []⟩, ⟨.archive, []⟩, uploadCmd env id .uploadData, mlbfCmd env id "all".toList, mlbfCmd env id "priority".toList] ++
      [uploadCmd env id .uploadMlbf, ⟨.df, []⟩] := by
  unfold generateCmds
  rw [if_pos h, if_pos h]
  rfl

/-- With DoNotUpload set, whatever else is set and whatever the programs do, nothing is uploaded. -/
theorem C115_forbidden (decode : Text → Bytes × Bool) (env : ShellEnv) (file : Bytes) (id : Text) (ok : Cmd → Bool) (h : env.doNotUpload ≠ []) :
    ∀ c ∈ (generateScript decode env file id ok).1, c.tool ≠ .uploadData ∧ c.tool ≠ .uploadMlbf := by
  intro c hc
  unfold generateScript at hc
  split at hc
  · have hm := (runCmds_prefix _ _).subset hc
    rw [generateCmds_not env id h] at hm
    simp only [List.mem_cons, List.not_mem_nil, or_false] at hm
    rcases hm with rfl | rfl | rfl | rfl | rfl | rfl | rfl | rfl <;> exact ⟨Tool.noConfusion, Tool.noConfusion⟩
  · simp at hc

/-- Filters are uploaded only after every step before has succeeded: the identifier, the CRLs, the certificates, the upload of the source data and both filters. -/
theorem C115_upload_last (decode : Text → Bytes × Bool) (env : ShellEnv) (file : Bytes) (id : Text) (ok : Cmd → Bool) (c : Cmd) (hc : c ∈ (generateScript decode env file id ok).1) (ht : c.tool = .uploadMlbf) :
    ∀ d ∈ [allocateCmd env, crlsCmd env id, knownCmd env id, uploadCmd env id .uploadData, mlbfCmd env id "all".toList, mlbfCmd env id "priority".toList],
      d ∈ (generateScript decode env file id ok).1 ∧ accepts d = true ∧ ok d = true := by
  have hd0 : env.doNotUpload = [] := by
    by_cases h : env.doNotUpload = []
    · exact h
    · exact absurd ht (C115_forbidden decode env file id ok h c hc).2
  intro d hd
  unfold generateScript at hc ⊢
  split at hc
  · rename_i hs
    simp only [hs, if_true]
    rw [generateCmds_up env id hd0] at hc ⊢
    rw [← List.cons_append] at hc ⊢
    have := runCmds_before _ _ _ c hc (fun hm => by
      simp only [List.mem_cons, List.not_mem_nil, or_false] at hm
      rcases hm with rfl | rfl | rfl | rfl | rfl | rfl | rfl | rfl | rfl <;> exact Tool.noConfusion ht)
    have hin : d ∈ allocateCmd env :: [⟨.makeLog, []⟩, crlsCmd env id, knownCmd env id, ⟨.look, []⟩, ⟨.archive, []⟩, uploadCmd env id .uploadData, mlbfCmd env id "all".toList, mlbfCmd env id "priority".toList] := by
      simp only [List.mem_cons, List.not_mem_nil, or_false] at hd ⊢
      rcases hd with h | h | h | h | h | h <;> simp only [h, true_or, or_true]
    have hok := this.1 d hin
    rw [Bool.and_eq_true] at hok
    exact ⟨this.2 d hin, hok.1, hok.2⟩
  · simp at hc

/-- Status 0 means that there were credentials and every command was started and succeeded, both uploads among them unless DoNotUpload is set. -/
theorem C115_status (decode : Text → Bytes × Bool) (env : ShellEnv) (file : Bytes) (id : Text) (ok : Cmd → Bool) :
    (generateScript decode env file id ok).2 = true ↔
      (setCredentials true decode env file).1 = true ∧ (∀ c ∈ allocateCmd env :: generateCmds env id, accepts c = true ∧ ok c = true) ∧
      (generateScript decode env file id ok).1 = allocateCmd env :: generateCmds env id := by
  unfold generateScript
  by_cases hs : (setCredentials true decode env file).1 = true
  · simp only [hs, if_true, true_and]
    rw [runCmds_status]
    refine ⟨fun h => ⟨fun c hc => by simpa using h c hc, runCmds_all _ _ h⟩, fun h c hc => by simpa using h.1 c hc⟩
  · simp [hs]

/-- Unless DoNotUpload is set, both uploads are among the commands, of the same folder and to the same bucket from which the identifier was chosen. -/
theorem C115_uploads (env : ShellEnv) (id : Text) (h : env.doNotUpload = []) :
    ∀ t ∈ [Tool.uploadData, Tool.uploadMlbf], (⟨t, words id ++ "--filter-bucket".toList :: words (if env.bucket = [] then "crlite_filters_staging".toList else env.bucket)⟩ : Cmd) ∈ generateCmds env id := by
  intro t ht
  have e : ∀ t, (⟨t, words id ++ "--filter-bucket".toList :: words (if env.bucket = [] then "crlite_filters_staging".toList else env.bucket)⟩ : Cmd) = uploadCmd env id t := fun _ => rfl
  rw [e, generateCmds_up env id h]
  simp only [List.mem_cons, List.not_mem_nil, or_false] at ht
  rcases ht with rfl | rfl <;> simp only [List.mem_append, List.mem_cons, true_or, or_true]

/-! ### arguments in a configured environment -/

theorem bucketWords_plain (env : ShellEnv) (h : env.bucket = [] ∨ PlainWord env.bucket) :
    ∃ b, bucketWords env = [b] ∧ b = (if env.bucket = [] then "crlite_filters_staging".toList else env.bucket) ∧ looksOption b = false := by
  rcases h with h | h
  · exact ⟨"crlite_filters_staging".toList, by rw [bucketWords, h]; decide +kernel, by rw [if_pos h], by decide +kernel⟩
  · exact ⟨env.bucket, by rw [bucketWords, orDefault, if_neg h.nonempty, words_plain h], by rw [if_neg h.nonempty], looksOption_plain h.noDash⟩

/-- The intended arguments for both filters, if bucket and host are single words: the identifier, the bucket, the host, and the reasons with the type of filter. -/
theorem C115_mlbf_partial (env : ShellEnv) (hb : env.bucket = [] ∨ PlainWord env.bucket) (hs : PlainWord env.statsdHost) (id reasons : Text) (hi : PlainWord id) (hr : PlainWord reasons) :
    mlbfParse (mlbfCmd env id reasons).args =
      some ⟨id, if env.bucket = [] then "crlite_filters_staging".toList else env.bucket, some env.statsdHost, some reasons, none, some "clubcard".toList, none⟩ := by
  obtain ⟨b, hb1, hb2, hb3⟩ := bucketWords_plain env hb
  rw [← hb2]
  have hh := looksOption_plain hs.noDash
  have hi' := looksOption_plain hi.noDash
  have hr' := looksOption_plain hr.noDash
  have hargs : (mlbfCmd env id reasons).args = [id, "--filter-bucket".toList, b, "--statsd-host".toList, env.statsdHost, "--reason-set".toList, reasons, "--filter-type".toList, "clubcard".toList] := by
    simp only [mlbfCmd, hb1, words_plain hs, words_plain hi]
    rfl
  unfold mlbfParse
  rw [hargs, argparse_pos _ hi', argparse_val _ (by decide +kernel) (by decide +kernel) (by decide +kernel) hb3, argparse_val _ (by decide +kernel) (by decide +kernel) (by decide +kernel) hh,
    argparse_val _ (by decide +kernel) (by decide +kernel) (by decide +kernel) hr', argparse_val _ (by decide +kernel) (by decide +kernel) (by decide +kernel) (by decide +kernel)]
  rfl

/-- The intended arguments of the uploads and of the choice of the identifier. -/
theorem C115_uploads_partial (env : ShellEnv) (hb : env.bucket = [] ∨ PlainWord env.bucket) (id : Text) (hi : PlainWord id) (t : Tool) :
    uploadParse (uploadCmd env id t).args = some (id, if env.bucket = [] then "crlite_filters_staging".toList else env.bucket, false) := by
  obtain ⟨b, hb1, hb2, hb3⟩ := bucketWords_plain env hb
  rw [← hb2]
  have hargs : (uploadCmd env id t).args = [id, "--filter-bucket".toList, b] := by
    simp only [uploadCmd, hb1, words_plain hi]
    rfl
  unfold uploadParse
  rw [hargs, argparse_pos _ (looksOption_plain hi.noDash), argparse_val _ (by decide +kernel) (by decide +kernel) (by decide +kernel) hb3]
  rfl

theorem C115_allocate_partial (env : ShellEnv) (hc : Configured env) :
    allocateParse (allocateCmd env).args =
      some (some (if env.processing = [] then "/ct/processing/".toList else env.processing), if env.bucket = [] then "crlite_filters_staging".toList else env.bucket) := by
  obtain ⟨b, hb1, hb2, hb3⟩ := bucketWords_plain env hc.bucket
  rw [← hb2]
  have hp : ∃ p, words (orDefault env.processing "/ct/processing/".toList) = [p] ∧ p = (if env.processing = [] then "/ct/processing/".toList else env.processing) ∧ looksOption p = false := by
    rcases hc.processing with h | h
    · exact ⟨"/ct/processing/".toList, by rw [h]; decide +kernel, by rw [if_pos h], by decide +kernel⟩
    · exact ⟨env.processing, by rw [orDefault, if_neg h.nonempty, words_plain h], by rw [if_neg h.nonempty], looksOption_plain h.noDash⟩
  obtain ⟨p, hp1, hp2, hp3⟩ := hp
  rw [← hp2]
  have hargs : (allocateCmd env).args = ["--path".toList, p, "--filter-bucket".toList, b] := by
    simp only [allocateCmd, hb1, hp1]
    rfl
  unfold allocateParse
  rw [hargs, argparse_val _ (by decide +kernel) (by decide +kernel) (by decide +kernel) hp3, argparse_val _ (by decide +kernel) (by decide +kernel) (by decide +kernel) hb3]
  rfl

theorem plainWord_append {a b : Text} (ha : PlainWord a) (hb : ∀ c ∈ b, ¬ Space c) : PlainWord (a ++ b) :=
  ⟨fun h => ha.nonempty (List.append_eq_nil_iff.1 h).1, fun c hc => (List.mem_append.1 hc).elim (ha.noSpace c) (hb c), fun h => by
    cases a with
    | nil => exact ha.nonempty rfl
    | cons x a => exact ha.noDash h⟩

theorem noSpace_lit {b : Text} (h : b.all (fun c => !(isIfs c)) = true) : ∀ c ∈ b, ¬ Space c := by
  intro c hc hs
  have := List.all_eq_true.1 h c hc
  rw [(isIfs_iff c).2 hs] at this
  simp at this

/-- The flags of the two Go programs, each with one word: they read and write in the same folder, `enrolled.json` of the first is read by the second. -/
theorem C115_aggregate_partial (env : ShellEnv) (hp : env.persistent = [] ∨ PlainWord env.persistent) (hw : ∀ c ∈ env.workdir, ¬ Space c) (id : Text) (hi : PlainWord id) :
    let persistent := if env.persistent = [] then "/ct".toList else env.persistent
    (crlsCmd env id).args = ["-crlpath".toList, persistent ++ "/crls".toList, "-revokedpath".toList, id ++ "/revoked".toList, "-enrolledpath".toList, id ++ "/enrolled.json".toList, "-auditpath".toList, id ++ "/crl-audit.json".toList,
      "-ccadb".toList, persistent ++ "/ccadb-intermediates.csv".toList, "-stderrthreshold=INFO".toList, "-alsologtostderr".toList, "-log_dir".toList, id ++ "/log".toList] ∧
    (knownCmd env id).args = ["-knownpath".toList, id ++ "/known".toList, "-enrolledpath".toList, id ++ "/enrolled.json".toList, "-ctlogspath".toList, id ++ "/ct-logs.json".toList,
      "-stderrthreshold=INFO".toList, "-alsologtostderr".toList, "-log_dir".toList, env.workdir ++ "/log".toList] := by
  intro persistent
  have hpp : PlainWord persistent := by
    rcases hp with h | h
    · show PlainWord (if env.persistent = [] then _ else _)
      rw [if_pos h]
      exact ⟨by decide +kernel, noSpace_lit (by decide +kernel), by decide +kernel⟩
    · show PlainWord (if env.persistent = [] then _ else _)
      rw [if_neg h.nonempty]
      exact h
  have w : ∀ {a b : Text}, PlainWord a → b.all (fun c => !(isIfs c)) = true → words (a ++ b) = [a ++ b] := fun ha hb => words_plain (plainWord_append ha (noSpace_lit hb))
  have hd : orDefault env.persistent "/ct".toList = persistent := rfl
  have hlog : words (env.workdir ++ "/log".toList) = [env.workdir ++ "/log".toList] :=
    C115_words.1 _ (fun h => by have := (List.append_eq_nil_iff.1 h).2; exact absurd this (by decide +kernel))
      (fun c hc => (List.mem_append.1 hc).elim (hw c) (noSpace_lit (by decide +kernel) c))
  constructor
  · simp only [crlsCmd, crlsPath, hd]
    rw [w hpp (by decide +kernel), w hpp (by decide +kernel), w hi (by decide +kernel), w hi (by decide +kernel), w hi (by decide +kernel), w hi (by decide +kernel)]
    rfl
  · simp only [knownCmd]
    rw [hlog, w hi (by decide +kernel), w hi (by decide +kernel), w hi (by decide +kernel)]
    rfl

theorem plain_all : PlainWord "all".toList := ⟨by decide +kernel, noSpace_lit (by decide +kernel), by decide +kernel⟩

theorem plain_priority : PlainWord "priority".toList := ⟨by decide +kernel, noSpace_lit (by decide +kernel), by decide +kernel⟩

/-- For every channel of the publisher a filter is built in the folder that it looks for, from the known, revoked and log files that the two aggregators were told to write, and with the reasons for the delta the same as for the filter. -/
theorem C115_channels_partial (env : ShellEnv) (hc : Configured env) (id : Text) (hi : PlainWord id) (hl : id.getLast? ≠ some '/') :
    ∀ ch ∈ channels, ∃ c ∈ generateCmds env id, c.tool = .generateMlbf ∧ ∃ m, mlbfParse c.args = some m ∧
      (builderCall m).outdir = id ++ '/' :: ch.dir ∧ (builderCall m).known = id ++ "/known".toList ∧ (builderCall m).revoked = id ++ "/revoked".toList ∧ (builderCall m).ctLogs = id ++ "/ct-logs.json".toList ∧
      (builderCall m).statsd = some env.statsdHost ∧ (builderCall m).deltaReasons = (builderCall m).reasons ∧ "clubcard-".toList ++ (builderCall m).reasons = ch.dir ∧ (builderCall m).filterType = "clubcard".toList := by
  have hin : ∀ r ∈ ["all".toList, "priority".toList], mlbfCmd env id r ∈ generateCmds env id := by
    intro r hr
    simp only [List.mem_cons, List.not_mem_nil, or_false] at hr
    unfold generateCmds
    rcases hr with rfl | rfl <;> simp only [List.mem_append, List.mem_cons, true_or, or_true]
  have key : ∀ r, PlainWord r → r ∈ ["all".toList, "priority".toList] → ∀ ch : Channel, ch.dir = "clubcard-".toList ++ r → ∃ c ∈ generateCmds env id, c.tool = .generateMlbf ∧ ∃ m, mlbfParse c.args = some m ∧
      (builderCall m).outdir = id ++ '/' :: ch.dir ∧ (builderCall m).known = id ++ "/known".toList ∧ (builderCall m).revoked = id ++ "/revoked".toList ∧ (builderCall m).ctLogs = id ++ "/ct-logs.json".toList ∧
      (builderCall m).statsd = some env.statsdHost ∧ (builderCall m).deltaReasons = (builderCall m).reasons ∧ "clubcard-".toList ++ (builderCall m).reasons = ch.dir ∧ (builderCall m).filterType = "clubcard".toList := by
    intro r hr hm ch hch
    refine ⟨mlbfCmd env id r, hin r hm, rfl, _, C115_mlbf_partial env hc.bucket hc.statsdHost id r hi hr, ?_⟩
    have hf : ("clubcard".toList : Text) ≠ "cascade".toList := by decide +kernel
    have hne : ("clubcard".toList : Text) ≠ [] := by decide +kernel
    simp only [builderCall, given, pathJoin, if_neg hl, if_neg hr.nonempty, if_neg hne, if_neg hc.statsdHost.nonempty, hf, false_and, if_false, hch, orNone, Option.getD_some, and_true]
    have e1 : ("clubcard-".toList : Text) = "clubcard".toList ++ ['-'] := by decide +kernel
    have e2 : ('/' :: "known".toList : Text) = "/known".toList := by decide +kernel
    have e3 : ('/' :: "revoked".toList : Text) = "/revoked".toList := by decide +kernel
    have e4 : ('/' :: "ct-logs.json".toList : Text) = "/ct-logs.json".toList := by decide +kernel
    rw [e1, e2, e3, e4, List.append_assoc]
    exact ⟨rfl, rfl, rfl, rfl⟩
  intro ch hch
  simp only [channels, List.mem_cons, List.not_mem_nil, or_false] at hch
  rcases hch with rfl | rfl | rfl
  · exact key _ plain_all (by simp only [List.mem_cons, true_or]) _ (by decide +kernel)
  · exact key _ plain_all (by simp only [List.mem_cons, true_or]) _ (by decide +kernel)
  · exact key _ plain_priority (by simp only [List.mem_cons, true_or, or_true]) _ (by decide +kernel)

/-- In a configured environment no Python program refuses its arguments: the script ends with status 0 if there are credentials and every program succeeds. -/
theorem C115_runs_partial (decode : Text → Bytes × Bool) (env : ShellEnv) (file : Bytes) (id : Text) (ok : Cmd → Bool) (hc : Configured env) (hi : PlainWord id) (hs : (setCredentials true decode env file).1 = true)
    (hok : ∀ c ∈ allocateCmd env :: generateCmds env id, ok c = true) : (generateScript decode env file id ok).2 = true := by
  have hacc : ∀ c ∈ allocateCmd env :: generateCmds env id, accepts c = true := by
    have hall : accepts (allocateCmd env) = true := by
      show (allocateParse (allocateCmd env).args).isSome = true
      rw [C115_allocate_partial env hc]
      rfl
    have hup : ∀ t, t = .uploadData ∨ t = .uploadMlbf → accepts (uploadCmd env id t) = true := by
      intro t ht
      have := C115_uploads_partial env hc.bucket id hi t
      rcases ht with rfl | rfl
      · show (uploadParse _).isSome = true
        rw [this]; rfl
      · show (uploadParse _).isSome = true
        rw [this]; rfl
    have hml : ∀ r, PlainWord r → accepts (mlbfCmd env id r) = true := by
      intro r hr
      show (mlbfParse (mlbfCmd env id r).args).isSome = true
      rw [C115_mlbf_partial env hc.bucket hc.statsdHost id r hi hr]
      rfl
    intro c hm
    rcases List.mem_cons.1 hm with rfl | hm
    · exact hall
    by_cases hd : env.doNotUpload = []
    · rw [generateCmds_up env id hd] at hm
      simp only [List.mem_append, List.mem_cons, List.not_mem_nil, or_false] at hm
      rcases hm with (rfl | rfl | rfl | rfl | rfl | rfl | rfl | rfl) | rfl | rfl
      · rfl
      · rfl
      · rfl
      · rfl
      · rfl
      · exact hup _ (Or.inl rfl)
      · exact hml _ plain_all
      · exact hml _ plain_priority
      · exact hup _ (Or.inr rfl)
      · rfl
    · rw [generateCmds_not env id hd] at hm
      simp only [List.mem_cons, List.not_mem_nil, or_false] at hm
      rcases hm with rfl | rfl | rfl | rfl | rfl | rfl | rfl
      · rfl
      · rfl
      · rfl
      · rfl
      · exact hml _ plain_all
      · exact hml _ plain_priority
      · rfl
  exact (C115_status decode env file id ok).2 ⟨hs, fun c h => ⟨hacc c h, hok c h⟩, by
    unfold generateScript
    rw [if_pos hs]
    exact runCmds_all _ _ (fun c h => by rw [hacc c h, hok c h]; rfl)⟩

/-! ### where it fails -/

/-- The host for statistics is optional for every program, but not for the script: without it, whatever else is set, whatever the identifier and whatever the programs do, `--statsd-host` takes no value, `2-generate_mlbf` refuses its arguments
and the script ends with an error before there is a filter; the source data have been uploaded by then, if uploading is allowed and everything before went well. -/
theorem C115_statsd_fails (decode : Text → Bytes × Bool) (env : ShellEnv) (file : Bytes) (id : Text) (ok : Cmd → Bool) (h : OnlySpace env.statsdHost) :
    (generateScript decode env file id ok).2 = false ∧
    (∀ c ∈ (generateScript decode env file id ok).1, c.tool ≠ .uploadMlbf ∧ (c.tool = .generateMlbf → mlbfParse c.args = none)) ∧
    ((env.bucket = [] ∨ PlainWord env.bucket) → (env.processing = [] ∨ PlainWord env.processing) → PlainWord id → env.doNotUpload = [] → (setCredentials true decode env file).1 = true → (∀ c, ok c = true) →
      uploadCmd env id .uploadData ∈ (generateScript decode env file id ok).1) := by
  have hbad : ∀ r, mlbfParse (mlbfCmd env id r).args = none := by
    intro r
    have hargs : (mlbfCmd env id r).args = (words id ++ "--filter-bucket".toList :: bucketWords env) ++ "--statsd-host".toList :: "--reason-set".toList :: [r, "--filter-type".toList, "clubcard".toList] := by
      simp only [mlbfCmd, words_onlySpace _ h]
      simp only [List.append_assoc, List.cons_append, List.nil_append]
    unfold mlbfParse
    rw [hargs, argparse_missing (by decide +kernel) (by decide +kernel) (by decide +kernel) _ _ _ (Nat.le_refl _)]
  have hrej : ∀ r, accepts (mlbfCmd env id r) = false := by
    intro r
    show (mlbfParse (mlbfCmd env id r).args).isSome = false
    rw [hbad r]
    rfl
  have hin : mlbfCmd env id "all".toList ∈ allocateCmd env :: generateCmds env id := by
    unfold generateCmds
    simp only [List.mem_append, List.mem_cons, true_or, or_true]
  have hst : (generateScript decode env file id ok).2 = false := by
    cases hx : (generateScript decode env file id ok).2 with
    | false => rfl
    | true =>
      have := ((C115_status decode env file id ok).1 hx).2.1 _ hin
      rw [hrej] at this
      exact absurd this.1 (by decide)
  refine ⟨hst, ?_, ?_⟩
  · intro c hc
    refine ⟨fun ht => ?_, fun ht => ?_⟩
    · have := C115_upload_last decode env file id ok c hc ht (mlbfCmd env id "all".toList) (by simp only [List.mem_cons, true_or, or_true])
      rw [hrej] at this
      exact absurd this.2.1 (by decide)
    · unfold generateScript at hc
      split at hc
      · have hm := (runCmds_prefix _ _).subset hc
        by_cases hd : env.doNotUpload = []
        · rw [generateCmds_up env id hd] at hm
          simp only [List.mem_append, List.mem_cons, List.not_mem_nil, or_false] at hm
          rcases hm with rfl | (rfl | rfl | rfl | rfl | rfl | rfl | rfl | rfl) | rfl | rfl <;> first | exact hbad _ | exact Tool.noConfusion ht
        · rw [generateCmds_not env id hd] at hm
          simp only [List.mem_cons, List.not_mem_nil, or_false] at hm
          rcases hm with rfl | rfl | rfl | rfl | rfl | rfl | rfl | rfl <;> first | exact hbad _ | exact Tool.noConfusion ht
      · simp at hc
  · intro hb hp hi hd hs hok
    have hplain : PlainWord "h".toList := ⟨by decide +kernel, noSpace_lit (by decide +kernel), by decide +kernel⟩
    have hall : accepts (allocateCmd env) = true := by
      show (allocateParse (allocateCmd env).args).isSome = true
      have := C115_allocate_partial { env with persistent := [], statsdHost := "h".toList } ⟨hb, hp, Or.inl rfl, hplain⟩
      have e : (allocateCmd { env with persistent := [], statsdHost := "h".toList }).args = (allocateCmd env).args := rfl
      rw [e] at this
      rw [this]
      rfl
    unfold generateScript
    rw [if_pos hs, generateCmds_up env id hd]
    simp only [runCmds, hall, hok, Bool.and_self, if_true, List.cons_append, Bool.and_true]
    have a1 : accepts (⟨.makeLog, []⟩ : Cmd) = true := rfl
    have a2 : accepts (crlsCmd env id) = true := rfl
    have a3 : accepts (knownCmd env id) = true := rfl
    have a4 : accepts (⟨.look, []⟩ : Cmd) = true := rfl
    have a5 : accepts (⟨.archive, []⟩ : Cmd) = true := rfl
    rw [if_pos a1, if_pos a2, if_pos a3, if_pos a4, if_pos a5]
    split <;> simp only [List.mem_cons, true_or, or_true]

/-- Without `WORKDIR`, which nothing sets, the second aggregator is told to write its log to `/log`, not into the folder of the run. -/
theorem C115_log_dir_fails (env : ShellEnv) (id : Text) (h : env.workdir = []) : (knownCmd env id).args.getLast? = some "/log".toList ∧ (PlainWord id → (crlsCmd env id).args.getLast? = some (id ++ "/log".toList)) := by
  constructor
  · simp only [knownCmd, h]
    have : words ([] ++ "/log".toList) = ["/log".toList] := by decide +kernel
    rw [this, List.getLast?_append]
    rfl
  · intro hi
    simp only [crlsCmd]
    rw [words_plain (plainWord_append hi (b := "/log".toList) (noSpace_lit (by decide +kernel))), List.getLast?_append]
    rfl

/-- Without `--reason-set` the reasons are all, but the folder gets the name that Python gives to a missing value. -/
theorem C115_outdir_fails (id b : Text) (hl : id.getLast? ≠ some '/') :
    (builderCall ⟨id, b, none, none, none, some "clubcard".toList, none⟩).outdir = id ++ "/clubcard-None".toList ∧ (builderCall ⟨id, b, none, none, none, some "clubcard".toList, none⟩).reasons = "all".toList ∧
    ∀ ch ∈ channels, id ++ '/' :: ch.dir ≠ id ++ "/clubcard-None".toList := by
  have hf : ("clubcard".toList : Text) ≠ "cascade".toList := by decide +kernel
  have hne : ("clubcard".toList : Text) ≠ [] := by decide +kernel
  refine ⟨?_, rfl, ?_⟩
  · simp only [builderCall, given, pathJoin, if_neg hl, if_neg hne, hf, false_and, if_false, orNone, Option.getD_some, Option.getD_none]
    rfl
  · intro ch hch he
    have := List.append_cancel_left he
    have hn : ∀ ch ∈ channels, ('/' :: ch.dir : Text) ≠ "/clubcard-None".toList := by decide +kernel
    exact hn ch hch this

/-! ### the publisher and the signatures -/

/-- With DoNotUpload or KINTO_NOOP set, whatever else is set, the publisher runs without making changes, if it runs at all. -/
theorem C115_noop (decode : Text → Bytes × Bool) (env : ShellEnv) (file : Bytes) (there : Bool) (h : env.doNotUpload ≠ [] ∨ env.kintoNoop ≠ []) (call : PublisherCall)
    (hc : publishScript decode env file there = some call) : call.noop = true := by
  unfold publishScript at hc
  split at hc
  · split at hc
    · simp at hc
    · have hargs : publishArgs env = ("--filter-bucket".toList :: bucketWords env ++ ["--download-path".toList, "/tmp/crlite".toList]) ++ ["--noop".toList] := by
        unfold publishArgs
        rw [if_pos h]
        have : words "--noop".toList = ["--noop".toList] := by decide +kernel
        rw [this]
      unfold publisherParse at hc
      rw [hargs] at hc
      split at hc
      · rename_i o ho
        have hm := argparse_last (by decide +kernel) (by decide +kernel) _ _ (Nat.le_refl _) _ ho
        simp only [Option.some.injEq] at hc
        rw [← hc]
        exact lastValue_isSome hm
      · simp at hc
  · simp at hc

/-- So the server of the settings stays as it is. -/
theorem C115_noop_server (decode : Text → Bytes × Bool) (env : ShellEnv) (file : Bytes) (there : Bool) (h : env.doNotUpload ≠ [] ∨ env.kintoNoop ≠ []) (call : PublisherCall)
    (hc : publishScript decode env file there = some call) (e : PubWorld) (s : PubServer) : (publisherMain e channels call.noop s).2 = s := by
  rw [C115_noop decode env file there h call hc]
  exact C102_noop e channels s

/-- If neither is set and `ARGS` is empty, or if one of them is set, the publisher gets the bucket and the folder meant for it; it makes changes unless one is set. -/
theorem C115_publish_partial (decode : Text → Bytes × Bool) (env : ShellEnv) (file : Bytes) (hb : env.bucket = [] ∨ PlainWord env.bucket) (ha : OnlySpace env.args ∨ env.doNotUpload ≠ [] ∨ env.kintoNoop ≠ [])
    (hs : (setCredentials true decode env file).1 = true) :
    publishScript decode env file false =
      some ⟨decide (env.doNotUpload ≠ [] ∨ env.kintoNoop ≠ []), some "/tmp/crlite".toList, if env.bucket = [] then "crlite_filters_staging".toList else env.bucket, none⟩ := by
  obtain ⟨b, hb1, hb2, hb3⟩ := bucketWords_plain env hb
  rw [← hb2]
  unfold publishScript
  rw [if_pos hs, if_neg (by decide)]
  unfold publisherParse publishArgs
  rw [hb1]
  by_cases h : env.doNotUpload ≠ [] ∨ env.kintoNoop ≠ []
  · rw [if_pos h]
    have hw : words "--noop".toList = ["--noop".toList] := by decide +kernel
    have hd : decide (env.doNotUpload ≠ [] ∨ env.kintoNoop ≠ []) = true := decide_eq_true h
    rw [hw, hd]
    simp only [List.cons_append, List.nil_append]
    rw [argparse_val _ (by decide +kernel) (by decide +kernel) (by decide +kernel) hb3]
    rfl
  · rw [if_neg h]
    have hd : decide (env.doNotUpload ≠ [] ∨ env.kintoNoop ≠ []) = false := decide_eq_false h
    rw [hd, words_onlySpace _ (ha.resolve_right h)]
    simp only [List.cons_append, List.nil_append]
    rw [argparse_val _ (by decide +kernel) (by decide +kernel) (by decide +kernel) hb3]
    rfl

/-- Otherwise the variable `ARGS` of the environment is added: it can name another bucket, from which filters are then published, or forbid changes. -/
theorem C115_inherited_fails (decode : Text → Bytes × Bool) (file : Bytes) :
    ∃ env env' : ShellEnv, env.doNotUpload = [] ∧ env.kintoNoop = [] ∧ env.bucket = "crlite-filters-prod".toList ∧ (publishScript decode env file false).map PublisherCall.bucket = some "other".toList ∧
      env'.doNotUpload = [] ∧ env'.kintoNoop = [] ∧ (publishScript decode env' file false).map PublisherCall.noop = some true := by
  have hcr : ∀ a : Text, (setCredentials true decode ⟨[], [], a, [], "c".toList, [], [], "crlite-filters-prod".toList, [], []⟩ file).1 = true := by
    intro a
    unfold setCredentials
    rw [if_neg (fun h => h rfl)]
    show decide ("c".toList ≠ []) = true
    decide +kernel
  refine ⟨⟨[], [], "--filter-bucket other".toList, [], "c".toList, [], [], "crlite-filters-prod".toList, [], []⟩, ⟨[], [], "--noop".toList, [], "c".toList, [], [], "crlite-filters-prod".toList, [], []⟩, rfl, rfl, rfl, ?_, rfl, rfl, ?_⟩
  · unfold publishScript
    rw [if_pos (hcr _), if_neg (by decide)]
    decide +kernel
  · unfold publishScript
    rw [if_pos (hcr _), if_neg (by decide)]
    decide +kernel

/-- A second execution in the same file system publishes nothing: the folder is there. -/
theorem C115_again_fails (decode : Text → Bytes × Bool) (env : ShellEnv) (file : Bytes) : publishScript decode env file true = none := by
  unfold publishScript
  split <;> rfl

/-- With KINTO_NOOP set nothing is signed. -/
theorem C115_signoff_noop (decode : Text → Bytes × Bool) (env : ShellEnv) (file : Bytes) (size : Option Nat) (maxSize : Nat) (h : env.kintoNoop ≠ []) : signoffScript decode env file size maxSize = [] := by
  unfold signoffScript
  rw [if_neg h]
  split <;> rfl

/-- DoNotUpload, to which 0-set_credentials.inc points to avoid uploading, does not keep the signatures from being made. -/
theorem C115_signoff_fails (decode : Text → Bytes × Bool) (env : ShellEnv) (file : Bytes) (size : Option Nat) (maxSize : Nat) (d : Text) :
    signoffScript decode { env with doNotUpload := d } file size maxSize = signoffScript decode env file size maxSize := rfl

/-! ### credentials -/

/-- No script goes on without credentials; with them the file in a fresh file system has what was given. -/
theorem C115_credentials (strict : Bool) (decode : Text → Bytes × Bool) (env : ShellEnv) (file : Bytes) :
    ((setCredentials strict decode env file).1 = true → env.credentialsData ≠ [] ∨ env.googleCredentials ≠ []) ∧
    (env.credentialsData ≠ [] → (setCredentials strict decode env []).2 = (decode env.credentialsData).1) ∧
    (env.credentialsData = [] → (setCredentials strict decode env file).2 = file) ∧
    (strict = true → env.credentialsData ≠ [] → (setCredentials strict decode env file).1 = (decode env.credentialsData).2) := by
  unfold setCredentials
  by_cases h : env.credentialsData = []
  · simp [h]
  · simp only [ne_eq, h, not_false_eq_true, if_true, true_or, implies_true, List.nil_append, true_and, false_implies]
    intro hs _
    rw [hs]
    rfl

/-- In a file system where a script with credentials ran before, they are written a second time after the first. -/
theorem C115_credentials_fails (strict : Bool) (decode : Text → Bytes × Bool) (env : ShellEnv) (h : env.credentialsData ≠ []) :
    (setCredentials strict decode env (setCredentials strict decode env []).2).2 = (decode env.credentialsData).1 ++ (decode env.credentialsData).1 := by
  unfold setCredentials
  simp [h]

/-! ### examples -/

/-- An environment like that of production. -/
def exShellEnv : ShellEnv := ⟨[], [], [], [], "/c.json".toList, [], [], "crlite-filters-prod".toList, "statsd".toList, []⟩

theorem exShellEnv_configured : Configured exShellEnv :=
  ⟨Or.inr ⟨by decide +kernel, noSpace_lit (by decide +kernel), by decide +kernel⟩, Or.inl rfl, Or.inl rfl, ⟨by decide +kernel, noSpace_lit (by decide +kernel), by decide +kernel⟩⟩

def exRunFolder : Text := "/ct/processing/20261117-0".toList

theorem exRunFolder_plain : PlainWord exRunFolder := ⟨by decide +kernel, noSpace_lit (by decide +kernel), by decide +kernel⟩

def exNoDecode (_ : Text) : Bytes × Bool := ([], true)

def exAllOk (_ : Cmd) : Bool := true

/-- Every command succeeds. -/
example : (generateScript exNoDecode exShellEnv [] exRunFolder exAllOk).2 = true := C115_runs_partial _ _ _ _ _ exShellEnv_configured exRunFolder_plain (by decide +kernel) (fun _ _ => rfl)
example : ((generateScript exNoDecode exShellEnv [] exRunFolder exAllOk).1.map Cmd.tool) =
    [.allocate, .makeLog, .aggregateCrls, .aggregateKnown, .look, .archive, .uploadData, .generateMlbf, .generateMlbf, .uploadMlbf, .df] := by decide +kernel
/-- The second aggregator fails. -/
example : ((generateScript exNoDecode exShellEnv [] exRunFolder (fun c => decide (c.tool ≠ .aggregateKnown))).1.map Cmd.tool) = [.allocate, .makeLog, .aggregateCrls, .aggregateKnown] := by decide +kernel
example := C115_forbidden exNoDecode { exShellEnv with doNotUpload := "1".toList } [] exRunFolder exAllOk (by decide +kernel)
example := C115_upload_last exNoDecode exShellEnv [] exRunFolder exAllOk (uploadCmd exShellEnv exRunFolder .uploadMlbf) (by decide +kernel) rfl
example := (C115_status exNoDecode exShellEnv [] exRunFolder exAllOk).1 (by decide +kernel)
example := C115_uploads exShellEnv exRunFolder rfl
example := C115_mlbf_partial exShellEnv exShellEnv_configured.bucket exShellEnv_configured.statsdHost exRunFolder "all".toList exRunFolder_plain plain_all
example := C115_uploads_partial exShellEnv exShellEnv_configured.bucket exRunFolder exRunFolder_plain .uploadData
example := C115_allocate_partial exShellEnv exShellEnv_configured
example := C115_aggregate_partial exShellEnv exShellEnv_configured.persistent (by intro c hc; cases hc) exRunFolder exRunFolder_plain
example := C115_channels_partial exShellEnv exShellEnv_configured exRunFolder exRunFolder_plain (by decide +kernel)
/-- Without a host for statistics: the data are uploaded, no filter is built. -/
example : ((generateScript exNoDecode { exShellEnv with statsdHost := [] } [] exRunFolder exAllOk).1.map Cmd.tool, (generateScript exNoDecode { exShellEnv with statsdHost := [] } [] exRunFolder exAllOk).2) =
    ([.allocate, .makeLog, .aggregateCrls, .aggregateKnown, .look, .archive, .uploadData, .generateMlbf], false) := by decide +kernel
example := C115_statsd_fails exNoDecode { exShellEnv with statsdHost := [] } [] exRunFolder exAllOk (fun _ h => nomatch h)
example := C115_log_dir_fails exShellEnv exRunFolder rfl
example := C115_outdir_fails exRunFolder "b".toList (by decide +kernel)
example : publishScript exNoDecode exShellEnv [] false = some ⟨false, some "/tmp/crlite".toList, "crlite-filters-prod".toList, none⟩ := C115_publish_partial _ _ _ exShellEnv_configured.bucket (Or.inl (fun _ h => nomatch h)) (by decide +kernel)
example : publishScript exNoDecode { exShellEnv with kintoNoop := "1".toList, args := "--filter-bucket".toList } [] false = some ⟨true, some "/tmp/crlite".toList, "crlite-filters-prod".toList, none⟩ := by decide +kernel
example := C115_noop exNoDecode { exShellEnv with kintoNoop := "1".toList } [] false (Or.inr (by decide +kernel)) ⟨true, some "/tmp/crlite".toList, "crlite-filters-prod".toList, none⟩ (by decide +kernel)
example := C115_noop_server exNoDecode { exShellEnv with doNotUpload := "1".toList } [] false (Or.inl (by decide +kernel)) ⟨true, some "/tmp/crlite".toList, "crlite-filters-prod".toList, none⟩ (by decide +kernel)
/-- A bucket of two words makes the publisher refuse its arguments. -/
example : publishScript exNoDecode { exShellEnv with bucket := "a b".toList } [] false = none := by decide +kernel
example : signoffScript exNoDecode exShellEnv [] (some 5) 10 = [.intermediates, .certRevocations] := by decide +kernel
example := C115_signoff_noop exNoDecode { exShellEnv with kintoNoop := "0".toList } [] (some 5) 10 (by decide +kernel)
example := (C115_credentials true exNoDecode exShellEnv []).1 (by decide +kernel)
example := (C115_credentials true exNoDecode { exShellEnv with credentialsData := "e30=".toList } []).2.1 (by decide +kernel)
example := C115_credentials_fails true (fun _ => ([123, 125], true)) { exShellEnv with credentialsData := "e30=".toList } (by decide +kernel)

end Verif.Props
