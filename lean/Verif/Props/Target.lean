import Verif.Spec.Target
import Verif.Model.Target
import Verif.Props.PublisherMain
import Verif.Props.Json
import Verif.Props.Operations
/-!
Property C119: which clients get a record.
-/
namespace Verif.Props
open Verif.Spec

theorem symbols_quote (n : Nat) (s rest : Text) (h : ∀ c ∈ s, c ≠ '\'' ∧ c ≠ '\\') : symbols (n + 1) ('\'' :: (s ++ '\'' :: rest)) = (symbols n rest).map (Tok.str s :: ·) := by
  have h1 : (s ++ '\'' :: rest).takeWhile (· ≠ '\'') = s := by
    rw [List.takeWhile_append_of_pos (fun c hc => by simpa using (h c hc).1)]
    simp
  have h2 : (s ++ '\'' :: rest).dropWhile (· ≠ '\'') = '\'' :: rest := by
    rw [List.dropWhile_append_of_pos (fun c hc => by simpa using (h c hc).1)]
    simp
  simp only [symbols]
  rw [if_neg, h1, h2]
  · rfl
  · rw [h1]
    rintro (h' | h')
    · exact (h _ h').2 rfl
    · exact h' (by simp)

theorem symbols_front (m : Nat) (r : Text) :
    symbols (m + 6) ("env.version|versionCompare(".toList ++ r) =
      (symbols m r).map ([Tok.name "env".toList, .dot, .name "version".toList, .pipe, .name "versionCompare".toList, .lpar] ++ ·) := by
  cases h : symbols m r <;> simp [symbols, h, isNumeral, isNameChar, List.takeWhile, List.dropWhile]

theorem symbols_middle (m : Nat) (r : Text) : symbols (m + 8) (") >= 0 && ".toList ++ r) = (symbols m r).map ([Tok.rpar, .ge, .num 0, .and] ++ ·) := by
  cases h : symbols m r <;> simp [symbols, h, isNumeral, List.takeWhile, List.dropWhile, numeral]

theorem symbols_back (m : Nat) : symbols (m + 9) " == 'security.pki.crlite_channel'|preferenceValue('none')".toList =
    some [.eq, .str "security.pki.crlite_channel".toList, .pipe, .name "preferenceValue".toList, .lpar, .str "none".toList, .rpar] := by
  simp [symbols, isNumeral, isNameChar, List.takeWhile, List.dropWhile]

theorem expression_read (x slug : Text) :
    expression ([Tok.name "env".toList, .dot, .name "version".toList, .pipe, .name "versionCompare".toList, .lpar] ++ (Tok.str x :: ([Tok.rpar, .ge, .num 0, .and] ++
      (Tok.str slug :: [.eq, .str "security.pki.crlite_channel".toList, .pipe, .name "preferenceValue".toList, .lpar, .str "none".toList, .rpar])))) =
    some (.and (.ge (.transform .version "versionCompare".toList x) (.num 0)) (.eq (.str slug) (.transform (.str "security.pki.crlite_channel".toList) "preferenceValue".toList "none".toList))) := by
  simp [expression, comparison, operand, transforms]

theorem natText_quote (n : Nat) : ∀ c ∈ natText n, isNumeral c = true := by
  intro c hc
  obtain ⟨k, hk, rfl⟩ := (natText_digits n).2.2 c hc
  unfold isNumeral
  rw [decide_eq_true_eq, decDigit_toNat hk]
  omega

theorem numeral_ne {c d : Char} (h : isNumeral c = true) (hd : isNumeral d = false) : c ≠ d := by
  intro e
  rw [e, hd] at h
  cases h

theorem jexl_expression (ctx : ClientInfo) (slug : Text) (n : Nat) (hs : PlainSlug slug) :
    jexl ctx (filterExpression slug n) =
      some (.bool (decide (0 ≤ orderNum (versionOrder ctx.version (natText n ++ ".!".toList))) && decide (slug = ctx.channel))) := by
  have htext : filterExpression slug n = "env.version|versionCompare(".toList ++ ('\'' :: ((natText n ++ ".!".toList) ++ '\'' :: (") >= 0 && ".toList ++ ('\'' :: (slug ++ '\'' :: " == 'security.pki.crlite_channel'|preferenceValue('none')".toList))))) := by
    have e1 : "env.version|versionCompare('".toList = "env.version|versionCompare(".toList ++ ['\''] := by decide
    have e2 : ".!') >= 0 && '".toList = ".!".toList ++ ('\'' :: (") >= 0 && ".toList ++ ['\''])) := by decide
    have e3 : "' == 'security.pki.crlite_channel'|preferenceValue('none')".toList = '\'' :: " == 'security.pki.crlite_channel'|preferenceValue('none')".toList := by decide
    unfold filterExpression
    rw [e1, e2, e3]
    simp only [List.append_assoc, List.cons_append, List.nil_append]
  have hn : ∀ c ∈ natText n ++ ".!".toList, c ≠ '\'' ∧ c ≠ '\\' := by
    intro c hc
    rcases List.mem_append.1 hc with hc | hc
    · exact ⟨numeral_ne (natText_quote n c hc) (by decide), numeral_ne (natText_quote n c hc) (by decide)⟩
    · simp at hc
      rcases hc with rfl | rfl <;> decide
  obtain ⟨m, hm⟩ : ∃ m, (filterExpression slug n).length = m + 9 + 1 + 8 + 1 + 6 := by
    refine ⟨(filterExpression slug n).length - 25, ?_⟩
    have : 25 ≤ (filterExpression slug n).length := by
      rw [htext]
      simp only [List.length_append, List.length_cons]
      have : "env.version|versionCompare(".toList.length = 27 := by decide
      omega
    omega
  unfold jexl
  rw [hm, htext, symbols_front, symbols_quote _ _ _ hn, symbols_middle, symbols_quote _ _ _ hs, symbols_back]
  simp only [Option.map_some, Option.bind_some]
  rw [expression_read]
  simp only [Option.bind_some, value, transformed]
  rw [if_pos trivial, if_neg (by decide), if_pos trivial]
  rfl

/-! ### versions -/

theorem dotParts_head (t : Text) : ∃ ps, dotParts t = t.takeWhile (fun c => decide (c ≠ '.')) :: ps := by
  induction t with
  | nil => exact ⟨[], rfl⟩
  | cons c rest ih =>
    obtain ⟨ps, h⟩ := ih
    unfold dotParts
    rw [h]
    by_cases e : c = '.'
    · subst e
      exact ⟨rest.takeWhile (fun c => decide (c ≠ '.')) :: ps, by simp⟩
    · exact ⟨ps, by simp [e]⟩

theorem dotParts_append (d t : Text) (h : ∀ c ∈ d, c ≠ '.') : dotParts (d ++ '.' :: t) = d :: dotParts t := by
  induction d with
  | nil =>
    obtain ⟨ps, h⟩ := dotParts_head t
    show dotParts ('.' :: t) = _
    conv => lhs; unfold dotParts
    rw [h]
    simp
  | cons c d ih =>
    rw [List.cons_append]
    conv => lhs; unfold dotParts
    rw [ih (fun x hx => h x (List.mem_cons_of_mem _ hx))]
    dsimp only
    rw [if_neg (h c List.mem_cons_self)]

theorem dotParts_one (d : Text) (h : ∀ c ∈ d, c ≠ '.') : dotParts d = [d] := by
  induction d with
  | nil => rfl
  | cons c d ih =>
    conv => lhs; unfold dotParts
    rw [ih (fun x hx => h x (List.mem_cons_of_mem _ hx))]
    dsimp only
    rw [if_neg (h c List.mem_cons_self)]

theorem leading_digits (d p : Text) (hd : d ≠ []) (h : ∀ c ∈ d, isNumeral c = true) (hp : ∀ c ∈ p.head?, isNumeral c = false) : leading (d ++ p) = ((numeral d : Int), p) := by
  have hnt : ∀ q : Text, (∀ c ∈ q.head?, isNumeral c = false) → q.takeWhile isNumeral = [] ∧ q.dropWhile isNumeral = q := by
    intro q hq
    cases q with
    | nil => exact ⟨rfl, rfl⟩
    | cons c q =>
      have := hq c (by simp)
      simp [this]
  have h1 : (d ++ p).takeWhile isNumeral = d := by rw [List.takeWhile_append_of_pos h, (hnt p hp).1, List.append_nil]
  have h2 : (d ++ p).dropWhile isNumeral = p := by rw [List.dropWhile_append_of_pos h, (hnt p hp).2]
  unfold leading
  split
  · rename_i e
    exfalso
    cases d with
    | nil => exact hd rfl
    | cons c d =>
      have := h c List.mem_cons_self
      rw [(List.cons.inj e).1] at this
      exact absurd this (by decide)
  · rename_i e
    exfalso
    cases d with
    | nil => exact hd rfl
    | cons c d =>
      have := h c List.mem_cons_self
      rw [(List.cons.inj e).1] at this
      exact absurd this (by decide)
  · rw [h1, h2]

theorem part_digits (d : Text) (hd : d ≠ []) (h : ∀ c ∈ d, isNumeral c = true) : versionPart d = ⟨numeral d, none, 0, none⟩ := by
  unfold versionPart
  rw [if_neg]
  · have := leading_digits d [] hd h (by simp)
    rw [List.append_nil] at this
    rw [this]
    rfl
  · rintro rfl
    exact absurd (h '*' (by simp)) (by decide)

theorem part_letters (d : Text) (c : Char) (p : Text) (hd : d ≠ []) (h : ∀ c ∈ d, isNumeral c = true) (hc : 'a' ≤ c ∧ c ≤ 'z') :
    ∃ b x y, versionPart (d ++ c :: p) = ⟨numeral d, some (c :: b), x, y⟩ := by
  have hcn : 97 ≤ c.toNat ∧ c.toNat ≤ 122 := hc
  have hnum : isNumeral c = false := by
    unfold isNumeral
    rw [decide_eq_false_iff_not]
    omega
  have hne : ∀ e : Char, e.toNat < 97 → c ≠ e := by
    rintro e he rfl
    omega
  have hend : endsText c = false := by
    unfold endsText
    rw [hnum]
    simp [hne '+' (by decide), hne '-' (by decide)]
  unfold versionPart
  rw [if_neg]
  · rw [leading_digits d (c :: p) hd h (by simpa using hnum)]
    unfold afterNumber
    split
    · rename_i e
      exact absurd (List.cons.inj e).1 (hne '+' (by decide))
    · refine ⟨p.takeWhile (fun c => !(endsText c)), (leading ((c :: p).dropWhile (fun c => !(endsText c)))).1, orAbsent (leading ((c :: p).dropWhile (fun c => !(endsText c)))).2, ?_⟩
      rw [List.takeWhile_cons_of_pos (by simp [hend])]
      rfl
  · intro e
    have := congrArg List.length e
    cases d with
    | nil => exact hd rfl
    | cons => simp at this

theorem part_mark : versionPart ['!'] = ⟨0, some ['!'], 0, none⟩ := by rfl

theorem compare_int (a b : Int) : compare a b = if a < b then .lt else if a = b then .eq else .gt := rfl

/-- Any version is before or after `n.!` by its major number. -/
theorem order_release (v : Text) (a n : Nat) (h : Release v a) : versionOrder v (natText n ++ ".!".toList) = if a < n then .lt else .gt := by
  obtain ⟨d, rest, rfl, hd, hdn, rfl, hrest⟩ := h
  have hnd : ∀ c ∈ d, c ≠ '.' := fun c hc => numeral_ne (hdn c hc) (by decide)
  have hright : dotParts (natText n ++ ".!".toList) = [natText n, ['!']] := by
    show dotParts (natText n ++ '.' :: ['!']) = _
    rw [dotParts_append _ _ (fun c hc => numeral_ne (natText_quote n c hc) (by decide))]
    rfl
  have hnum : numeral (natText n) = n := (fixed_natText n).2.2.symm
  have hfirst : versionPart (natText n) = ⟨n, none, 0, none⟩ := by
    rw [part_digits _ (natText_digits n).1 (natText_quote n), hnum]
  have key : ∀ ps, (compareAll ps [['!']] = .gt) → compareAll (d :: ps) [natText n, ['!']] = if numeral d < n then .lt else .gt := by
    intro ps hps
    rw [compareAll, part_digits d hd hdn, hfirst, hps]
    unfold compareParts
    dsimp only
    rw [compare_int]
    by_cases h1 : numeral d < n
    · rw [if_pos h1, if_pos (by omega)]
      rfl
    · rw [if_neg h1, if_neg (by omega)]
      split <;> rfl
  unfold versionOrder
  rw [hright]
  rcases hrest with rfl | ⟨e, s, rfl, he, hen, hs⟩
  · rw [List.append_nil, dotParts_one d hnd]
    exact key [] (by simp only [compareAll]; decide)
  · rw [dotParts_append d _ hnd]
    obtain ⟨ps, hps⟩ := dotParts_head (e ++ s)
    rw [hps]
    apply key
    rw [List.takeWhile_append_of_pos (fun c hc => by simpa using numeral_ne (hen c hc) (by decide))]
    rw [compareAll, part_mark]
    have fin : ∀ b x y, (b = none ∨ ∃ c t, b = some (c :: t) ∧ 'a' ≤ c ∧ c ≤ 'z') → compareParts ⟨numeral e, b, x, y⟩ ⟨0, some ['!'], 0, none⟩ = .gt := by
      intro b x y hb
      unfold compareParts
      dsimp only
      rw [compare_int, if_neg (by omega)]
      split
      · rcases hb with rfl | ⟨c, t, rfl, hc⟩
        · rfl
        · have hcn : 97 ≤ c.toNat ∧ c.toNat ≤ 122 := hc
          have : compareAbsent (some (c :: t)) (some ['!']) = .gt := by
            show compareTexts (c :: t) ['!'] = .gt
            unfold compareTexts
            have e1 : ('!' : Char).toNat = 33 := rfl
            rw [e1, if_neg (by omega), if_pos (by omega)]
          rw [this]
          rfl
      · rfl
    cases s with
    | nil =>
      rw [List.takeWhile_nil, List.append_nil, part_digits e he hen, fin _ _ _ (.inl rfl)]
      rfl
    | cons c s =>
      rcases hs c (by simp) with rfl | hc
      · rw [List.takeWhile_cons_of_neg (by simp), List.append_nil, part_digits e he hen, fin _ _ _ (.inl rfl)]
        rfl
      · have hcn : 97 ≤ c.toNat ∧ c.toNat ≤ 122 := hc
        rw [List.takeWhile_cons_of_pos (by
          rw [decide_eq_true_eq]
          rintro rfl
          exact absurd hcn (by decide))]
        obtain ⟨b, x, y, hp⟩ := part_letters e c (s.takeWhile (fun c => decide (c ≠ '.'))) he hen hc
        rw [hp, fin _ _ _ (.inr ⟨c, b, rfl, hc⟩)]
        rfl

/-- **C119.** The expression of a record is true exactly for the clients of its channel that have the supported version or a later one, whatever letters and numbers follow in their version. -/
theorem C119_targets (ctx : ClientInfo) (slug : Text) (n a : Nat) (hs : PlainSlug slug) (hv : Release ctx.version a) :
    jexl ctx (filterExpression slug n) = some (.bool (decide (n ≤ a ∧ slug = ctx.channel))) := by
  rw [jexl_expression ctx slug n hs, order_release _ a n hv, Bool.decide_and]
  congr 3
  by_cases h : a < n
  · rw [if_pos h, decide_eq_false (show ¬(n ≤ a) by omega)]
    rfl
  · rw [if_neg h, decide_eq_true (show n ≤ a by omega)]
    rfl

example : jexl ⟨"133.0b9".toList, fun _ => some "default".toList⟩ (filterExpression "default".toList 133) = some (.bool true) :=
  C119_targets _ _ 133 133 (by unfold PlainSlug; decide) ⟨"133".toList, ".0b9".toList, rfl, by decide, by decide, by decide, .inr ⟨['0'], "b9".toList, rfl, by decide, by decide, by decide⟩⟩

/-- **C119.** The channels of the publisher: clients before version 133 get none of their records, all others those of the channel in their preference; without a preference they get none. -/
theorem C119_channels (ctx : ClientInfo) (a : Nat) (hv : Release ctx.version a) (r : KRec) (ch : Channel) (hch : ch ∈ channels) (hr : r.channel = some ch.slug) :
    (gets ctx (expressionOf r) = true ↔ 133 ≤ a ∧ ctx.pref "security.pki.crlite_channel".toList = some ch.slug) := by
  have hplain : PlainSlug ch.slug := by
    revert hch
    clear hr
    revert ch
    unfold PlainSlug
    decide
  have hnone : ch.slug ≠ "none".toList := by
    revert hch
    clear hr hplain
    revert ch
    decide
  have he : expressionOf r = some (filterExpression ch.slug 133) := by
    unfold expressionOf
    rw [hr]
    rfl
  rw [he]
  unfold gets
  dsimp only
  rw [C119_targets ctx ch.slug 133 a hplain hv, decide_eq_true_eq, Option.some.injEq, Val.bool.injEq, decide_eq_true_eq]
  unfold ClientInfo.channel
  cases ctx.pref "security.pki.crlite_channel".toList with
  | none =>
    constructor
    · intro h
      exact absurd h.2 hnone
    · intro h
      cases h.2
  | some p =>
    rw [Option.getD_some, Option.some.injEq]
    exact ⟨fun h => ⟨h.1, h.2.symm⟩, fun h => ⟨h.1, h.2.symm⟩⟩

/-! ### the collection -/

theorem publishRecord_adds (env : PubEnv) (run : Text) (rec : KRec) (st : List KRec) : ∀ x ∈ (publishRecord env run rec st).2, x ∈ st ∨ x.channel = rec.channel := by
  intro x hx
  unfold publishRecord at hx
  dsimp only at hx
  cases ho : env.outcome run <;> rw [ho] at hx <;> dsimp only at hx
  · rcases List.mem_append.1 hx with h | h
    · exact .inl h
    · rw [List.mem_singleton.1 h]
      exact .inr rfl
  · exact .inl hx
  · exact .inl hx
  · rcases List.mem_append.1 hx with h | h
    · exact .inl h
    · rw [List.mem_singleton.1 h]
      exact .inr rfl

theorem publishDeltas_adds (env : PubEnv) (db : RunDb) (slug : Text) (runs : List Text) :
    ∀ (prev : Text) (st : List KRec), ∀ x ∈ (publishDeltas env db slug runs prev st).2, x ∈ st ∨ x.channel = some slug := by
  induction runs with
  | nil => intro prev st x hx; exact .inl hx
  | cons run rest ih =>
    intro prev st x hx
    unfold publishDeltas at hx
    split at hx
    · cases ht : db.time run with
      | none => rw [ht] at hx; exact .inl hx
      | some t =>
        rw [ht] at hx
        dsimp only at hx
        have h1 := publishRecord_adds env run (deltaRec env slug run t prev) st
        cases hp : publishRecord env run (deltaRec env slug run t prev) st with
        | mk o st' =>
          rw [hp] at hx h1
          cases o with
          | none => exact h1 x hx
          | some i =>
            rcases ih i st' x hx with h | h
            · exact h1 x h
            · exact .inr h
    · exact .inl hx

theorem runTask_adds (env : PubEnv) (db : RunDb) (slug : Text) (existing : List KRec) (task : PubTask) (st : List KRec) :
    ∀ x ∈ (runTask env db slug existing task st).2, x ∈ st ∨ x.channel = some slug := by
  intro x hx
  cases task with
  | full run =>
    unfold runTask at hx
    dsimp only at hx
    split at hx
    · have c1 := clear_sub env slug false st st
      cases h1 : clearLoop env slug false st st with
      | mk b1 st1 =>
        rw [h1] at hx c1
        cases b1 with
        | false => exact .inl (c1 x hx)
        | true =>
          dsimp only at hx
          have c2 := clear_sub env slug true st1 st1
          cases h2 : clearLoop env slug true st1 st1 with
          | mk b2 st2 =>
            rw [h2] at hx c2
            cases b2 with
            | false => exact .inl (c1 x (c2 x hx))
            | true =>
              dsimp only at hx
              cases ht : db.time run with
              | none => rw [ht] at hx; exact .inl (c1 x (c2 x hx))
              | some t =>
                rw [ht] at hx
                dsimp only at hx
                have h3 := publishRecord_adds env run (fullRec env slug run t) st2
                cases hp : publishRecord env run (fullRec env slug run t) st2 with
                | mk o st3 =>
                  rw [hp] at hx h3
                  have hx' : x ∈ st3 := by cases o <;> exact hx
                  rcases h3 x hx' with h | h
                  · exact .inl (c1 x (c2 x h))
                  · exact .inr h
    · exact .inl hx
  | deltas runs =>
    unfold runTask at hx
    dsimp only at hx
    cases runs with
    | nil => exact .inl hx
    | cons run rest =>
      dsimp only at hx
      cases hl : existing.getLast?.bind KRec.id with
      | none => rw [hl] at hx; exact .inl hx
      | some prev => rw [hl] at hx; exact publishDeltas_adds env db slug _ prev st x hx

theorem publishCrlite_adds (env : PubEnv) (db : RunDb) (slug : Text) (maxAge : Nat) (noop : Bool) (st : List KRec) :
    ∀ x ∈ (publishCrlite env db slug maxAge noop st).2, x ∈ st ∨ x.channel = some slug := by
  intro x hx
  unfold publishCrlite at hx
  dsimp only at hx
  cases hl : db.ids.getLast? with
  | none => rw [hl] at hx; exact .inl hx
  | some newest =>
    rw [hl] at hx
    dsimp only at hx
    split at hx
    · cases hd : determinePublish (sortRecs (st.filter (ofChannel slug))) db maxAge with
      | none => rw [hd] at hx; exact .inl hx
      | some task =>
        rw [hd] at hx
        dsimp only at hx
        split at hx
        · exact .inl hx
        · exact runTask_adds env db slug _ task st x hx
    · exact .inl hx

theorem review_content {α : Type} (ok : Bool) (c : Coll α) : (requestReview ok c).2.content = c.content := by
  unfold requestReview
  split
  · unfold Coll.askReview
    repeat' split
    all_goals rfl
  · rfl

theorem channelStage_adds (e : PubWorld) (noop : Bool) (ch : Channel) (c : Coll (List KRec)) : ∀ x ∈ (channelStage e noop ch c).2.content, x ∈ c.content ∨ x.channel = some ch.slug := by
  intro x hx
  unfold channelStage at hx
  dsimp only at hx
  split at hx
  · have h1 := publishCrlite_adds (e.pub ch.slug) (e.db ch.slug) ch.slug ch.maxAge noop c.content
    cases hp : publishCrlite (e.pub ch.slug) (e.db ch.slug) ch.slug ch.maxAge noop c.content with
    | mk b st =>
      rw [hp] at hx h1
      apply h1
      cases b with
      | false =>
        dsimp only at hx
        rwa [put_content] at hx
      | true =>
        dsimp only at hx
        split at hx
        · rwa [review_content, put_content] at hx
        · rwa [put_content] at hx
  · exact .inl hx

theorem clearStage_adds (e : PubWorld) (noop : Bool) (ch : Channel) (c : Coll (List KRec)) : ∀ x ∈ (clearStage e noop ch c).2.content, x ∈ c.content := by
  intro x hx
  unfold clearStage at hx
  split at hx
  · exact hx
  · split at hx
    · have c1 := clear_sub (e.pub ch.slug) ch.slug false c.content c.content
      cases h1 : clearLoop (e.pub ch.slug) ch.slug false c.content c.content with
      | mk b1 st1 =>
        rw [h1] at hx c1
        cases b1 with
        | false =>
          dsimp only at hx
          rw [put_content] at hx
          exact c1 x hx
        | true =>
          dsimp only at hx
          have c2 := clear_sub (e.pub ch.slug) ch.slug true st1 st1
          rw [put_content] at hx
          exact c1 x (c2 x hx)
    · exact hx

theorem runStages_adds (e : PubWorld) (noop : Bool) (l : List PubCall) :
    ∀ (s : PubServer), ∀ x ∈ (runStages e noop l s).2.filters.content, x ∈ s.filters.content ∨ ∃ ch, PubCall.channel ch ∈ l ∧ x.channel = some ch.slug := by
  induction l with
  | nil => intro s x hx; exact .inl hx
  | cons g rest ih =>
    intro s x hx
    have one : ∀ x ∈ (stageRun e noop s g).2.filters.content, x ∈ s.filters.content ∨ ∃ ch, PubCall.channel ch ∈ g :: rest ∧ x.channel = some ch.slug := by
      intro x hx
      cases g with
      | logs => exact .inl hx
      | inters => exact .inl hx
      | clear ch => exact .inl (clearStage_adds e noop ch s.filters x hx)
      | channel ch =>
        rcases channelStage_adds e noop ch s.filters x hx with h | h
        · exact .inl h
        · exact .inr ⟨ch, List.mem_cons_self, h⟩
    unfold runStages at hx
    cases hs : stageRun e noop s g with
    | mk b s' =>
      rw [hs] at hx one
      cases b with
      | false => exact one x hx
      | true =>
        rcases ih s' x hx with h | ⟨ch, h, h'⟩
        · exact one x h
        · exact .inr ⟨ch, List.mem_cons_of_mem _ h, h'⟩

/-- **C119.** However an execution ends: every record it leaves was there before or has the channel, and with it the expression, of a channel in use. -/
theorem C119_written (e : PubWorld) (chs : List Channel) (noop : Bool) (s : PubServer) (r : KRec) (hr : r ∈ (publisherMain e chs noop s).2.filters.content) :
    r ∈ s.filters.content ∨ ∃ ch ∈ chs, ch.enabled = true ∧ r.channel = some ch.slug := by
  rcases runStages_adds e noop (mainStages chs) s r hr with h | ⟨ch, h, h'⟩
  · exact .inl h
  · unfold mainStages at h
    simp only [List.mem_cons, reduceCtorEq, List.mem_append, List.mem_map, PubCall.channel.injEq, exists_eq_right, List.mem_filter, List.not_mem_nil, or_false, false_or, and_false, exists_false] at h
    exact .inr ⟨ch, h.1, h.2, h'⟩

/-- **C119.** If all records have a channel, then a client of a supported version gets exactly what the publisher counts as the records of the channel in the client's preference. -/
theorem C119_view (ctx : ClientInfo) (a : Nat) (hv : Release ctx.version a) (ha : 133 ≤ a) (st : List KRec) (hst : ∀ r ∈ st, ∃ c, r.channel = some c ∧ PlainSlug c) :
    st.filter (fun r => gets ctx (expressionOf r)) = recordsOf ctx.channel st := by
  unfold recordsOf
  apply List.filter_congr
  intro r hr
  obtain ⟨c, hc, hp⟩ := hst r hr
  have he : expressionOf r = some (filterExpression c 133) := by
    unfold expressionOf
    rw [hc]
    rfl
  rw [he]
  unfold gets
  dsimp only
  rw [C119_targets ctx c 133 a hp hv, hc, Option.getD_some]
  by_cases h : c = ctx.channel <;> simp [h, ha]

/-- **C119.** … and a client of an earlier version gets nothing. -/
theorem C119_early (ctx : ClientInfo) (a : Nat) (hv : Release ctx.version a) (ha : a < 133) (st : List KRec) (hst : ∀ r ∈ st, ∃ c, r.channel = some c ∧ PlainSlug c) :
    st.filter (fun r => gets ctx (expressionOf r)) = [] := by
  rw [List.filter_eq_nil_iff]
  intro r hr
  obtain ⟨c, hc, hp⟩ := hst r hr
  have he : expressionOf r = some (filterExpression c 133) := by
    unfold expressionOf
    rw [hc]
    rfl
  rw [he]
  unfold gets
  dsimp only
  rw [C119_targets ctx c 133 a hp hv]
  simp [show ¬(133 ≤ a) by omega]

/-- **C119.** After an execution without an error, a client of a supported version whose preference is a channel in use gets a single chain of filters that has the newest run in it. -/
theorem C119_client (e : PubWorld) (chs : List Channel) (s s' : PubServer) (hw : SoundWorld e chs) (hs : FiltersSound s.filters.content) (hold : ∀ r ∈ s.filters.content, ∃ c, r.channel = some c ∧ PlainSlug c)
    (hplain : ∀ ch ∈ chs, PlainSlug ch.slug) (h : publisherMain e chs false s = (none, s')) (ctx : ClientInfo) (a : Nat) (hv : Release ctx.version a) (ha : 133 ≤ a) :
    (∀ ch ∈ chs, ch.enabled = true → ctx.pref "security.pki.crlite_channel".toList = some ch.slug → ∀ newest, (e.db ch.slug).ids.getLast? = some newest →
      SingleChain (s'.filters.content.filter (fun r => gets ctx (expressionOf r))) ∧ ∃ r ∈ s'.filters.content, gets ctx (expressionOf r) = true ∧ attachmentOf ch.slug newest r) ∧
    (∀ ch ∈ chs, ch.enabled = false → ctx.pref "security.pki.crlite_channel".toList = some ch.slug → s'.filters.content.filter (fun r => gets ctx (expressionOf r)) = []) := by
  have hall : ∀ r ∈ s'.filters.content, ∃ c, r.channel = some c ∧ PlainSlug c := by
    intro r hr
    have hr' : r ∈ (publisherMain e chs false s).2.filters.content := by rw [h]; exact hr
    rcases C119_written e chs false s r hr' with h1 | ⟨ch, h1, _, h2⟩
    · exact hold r h1
    · exact ⟨ch.slug, h2, hplain ch h1⟩
  have hview := C119_view ctx a hv ha s'.filters.content hall
  obtain ⟨f1, f2, _, _, _⟩ := C102_finished e chs s s' hw hs h
  refine ⟨?_, ?_⟩
  · intro ch hch hen hpref newest hnew
    have hc : ctx.channel = ch.slug := by
      unfold ClientInfo.channel
      rw [hpref]
      rfl
    obtain ⟨g1, r, hr, g2⟩ := f1 ch hch hen newest hnew
    rw [hview, hc]
    refine ⟨g1, r, ?_, ?_, g2⟩
    · exact (List.mem_filter.1 hr).1
    · rw [← hc, ← hview] at hr
      exact (List.mem_filter.1 hr).2
  · intro ch hch hen hpref
    have hc : ctx.channel = ch.slug := by
      unfold ClientInfo.channel
      rw [hpref]
      rfl
    rw [hview, hc]
    exact f2 ch hch hen

/-- **C119, what fails.** A record without a channel, which the publisher counts to the channel `default`, has no expression: every client gets it, of any version and with any preference. -/
theorem C119_old_fails (ctx : ClientInfo) (r : KRec) (hr : r.channel = none) : gets ctx (expressionOf r) = true ∧ ofChannel "default".toList r = true := by
  unfold expressionOf ofChannel
  rw [hr]
  exact ⟨rfl, by decide⟩

/-! ### the answers of a client -/

/-- All records of a history have a channel. -/
theorem reach_channels {s : Ops} (h : OpsReach s) : ∀ r ∈ s.recs, ∃ c, r.channel = some c := by
  induction h with
  | init => intro r hr; cases hr
  | step s e _ _ ih =>
    cases e with
    | generate a => exact ih
    | write =>
      unfold Ops.step
      dsimp only
      split
      · exact ih
      · exact ih
    | publish ages env slug dir delta parseTime maxAge noop =>
      intro r hr
      rcases publishCrlite_adds env (publishedDb ages parseTime dir delta s.bucket) slug maxAge noop s.recs r hr with h | h
      · exact ih r h
      · exact ⟨slug, h⟩

/-- **C119.** After any history of generations and publications, stopped anywhere, a client of a supported version gets exactly the records of the channel in its preference. -/
theorem C119_history (s : Ops) (h : OpsReach s) (hplain : ∀ r ∈ s.recs, ∀ c, r.channel = some c → PlainSlug c) (ctx : ClientInfo) (a : Nat) (hv : Release ctx.version a) (ha : 133 ≤ a) :
    s.recs.filter (fun r => gets ctx (expressionOf r)) = recordsOf ctx.channel s.recs :=
  C119_view ctx a hv ha s.recs (fun r hr => by
    obtain ⟨c, hc⟩ := reach_channels h r hr
    exact ⟨c, hc, hplain r hr c hc⟩)

section
variable {F : Type} (dec : Bytes → Option (List Bytes)) (card : Bytes → Option (Card F)) (build : List Bytes → List (Bytes × Bool) → Option F) (contains : F → Bytes → Bool) (enrolls : F → Bytes → Bool)
  (he : EnrollsInput build enrolls) (order : List Text → List Text) (W : GenRun → RunInput) (X : GenRun → Dir) (cov : GenRun → Coverage) (sha : Bytes → Bytes) (parse : Bytes → Option IssuerCert) (verifies : Bytes → Bool)
  (inter : Intermediates) (s : Ops) (h : OpsReach s) (hgen : ∀ y a prev, Finished s.bucket y → MadeBy s y a prev → Generates dec card build contains order a (W a) (X a) (cov a))
  (hplain : ∀ r ∈ s.recs, ∀ c, r.channel = some c → PlainSlug c) (ctx : ClientInfo) (major : Nat) (hrel : Release ctx.version major) (hmaj : 133 ≤ major) (hs : ∀ c ∈ ctx.channel, c ≠ '-') (l : List KRec)
  (hl : l.Perm (s.recs.filter (fun r => gets ctx (expressionOf r)))) (hc : IsChain l) (cards : List (Card F)) (hcards : ClientCards card s.bucket ctx.channel l cards)
include he h hgen hplain hrel hmaj hs hl hc hcards

/-- **C119, Revoked (partial).** After any history: if the records whose expression is true for a client of a supported version are a chain, and the client has their filters, then it answers Revoked for a certificate that the last run of
the chain knows and finds revoked, provided each run of the chain that found it revoked also covered one of its SCTs (as in C82). -/
theorem C119_revoked_partial (c : ClientCert) (spki : Bytes) (hlk : lookupSpki parse verifies inter c.issuerDN = some spki) (hv : c.valid = true)
    (hkr : ∀ runs z, CarryAll ctx.channel runs l → runs.getLast? = some z → ∀ a prev, MadeBy s z a prev → KnownIn (W a) (sha spki) c.serial ∧ RevokedIn .all (W a) (sha spki) c.serial)
    (hcov : ∀ runs, CarryAll ctx.channel runs l → ∀ y ∈ runs, ∀ a prev, MadeBy s y a prev → KnownIn (W a) (sha spki) c.serial → RevokedIn .all (W a) (sha spki) c.serial → Covers (cov a) c.scts) :
    clientQuery sha parse verifies (cardHas enrolls contains) cards inter c = .revoked := by
  rw [C119_history s h hplain ctx major hrel hmaj] at hl
  exact C82_revoked_partial dec card build contains enrolls he order W X cov sha parse verifies inter s h hgen ctx.channel hs l hl hc cards hcards c spki hlk hv hkr hcov

/-- **C119, not Revoked.** … and never for a certificate that no run of the chain found revoked, if the runs that cover it know it. -/
theorem C119_not_revoked (c : ClientCert) (spki : Bytes) (hlk : lookupSpki parse verifies inter c.issuerDN = some spki)
    (hr : ∀ runs, CarryAll ctx.channel runs l → ∀ y ∈ runs, ∀ a prev, MadeBy s y a prev → ¬RevokedIn .all (W a) (sha spki) c.serial)
    (hsure : ∀ runs, CarryAll ctx.channel runs l → ∀ y ∈ runs, ∀ a prev, MadeBy s y a prev → Covers (cov a) c.scts → KnownIn (W a) (sha spki) c.serial) :
    clientQuery sha parse verifies (cardHas enrolls contains) cards inter c ≠ .revoked := by
  rw [C119_history s h hplain ctx major hrel hmaj] at hl
  exact C82_not_revoked dec card build contains enrolls he order W X cov sha parse verifies inter s h hgen ctx.channel hs l hl hc cards hcards c spki hlk hr hsure

end

/-! ### examples -/

/-- Firefox 134 Nightly with a preference. -/
def exClient (pref : Text) : ClientInfo := ⟨"134.0a1".toList, fun p => if p = "security.pki.crlite_channel".toList then some pref else none⟩

theorem exClient_release (pref : Text) : Release (exClient pref).version 134 :=
  ⟨"134".toList, ".0a1".toList, rfl, by decide, by decide, by decide, .inr ⟨['0'], "a1".toList, rfl, by decide, by decide, by decide⟩⟩

/-- The last extended support release without these filters. -/
def exEsr : ClientInfo := ⟨"128.5.0esr".toList, fun _ => some "default".toList⟩

theorem exEsr_release : Release exEsr.version 128 :=
  ⟨"128".toList, ".5.0esr".toList, rfl, by decide, by decide, by decide, .inr ⟨['5'], ".0esr".toList, rfl, by decide, by decide, by decide⟩⟩

theorem exFilters_channels : ∀ r ∈ exServer.filters.content, ∃ c, r.channel = some c ∧ PlainSlug c := by
  have h : ∀ r ∈ exServer.filters.content, r.channel = some "default".toList ∨ r.channel = some "experimental+deltas".toList := by decide +kernel
  intro r hr
  rcases h r hr with h | h
  · exact ⟨_, h, by unfold PlainSlug; decide⟩
  · exact ⟨_, h, by unfold PlainSlug; decide⟩

example : exServer.filters.content ≠ [] := by decide +kernel

example : filterExpression "compat".toList 133 = "env.version|versionCompare('133.!') >= 0 && 'compat' == 'security.pki.crlite_channel'|preferenceValue('none')".toList := by decide +kernel

example (r : KRec) (hr : r.channel = some "compat".toList) : gets (exClient "compat".toList) (expressionOf r) = true :=
  (C119_channels _ 134 (exClient_release _) r ⟨"compat".toList, "clubcard-priority".toList, 45 * 86400, true⟩ (by decide) hr).2 ⟨by decide, rfl⟩

example (r : KRec) (hr : r.channel = some "default".toList) : ¬(gets exEsr (expressionOf r) = true) :=
  fun h => absurd ((C119_channels _ 128 exEsr_release r ⟨"default".toList, "clubcard-all".toList, 45 * 86400, true⟩ (by decide) hr).1 h).1 (by decide)

example : ∀ r ∈ exAfter.filters.content, r ∈ exServer.filters.content ∨ ∃ ch ∈ channels, ch.enabled = true ∧ r.channel = some ch.slug := C119_written exWorld channels false exServer

example : exServer.filters.content.filter (fun r => gets (exClient "default".toList) (expressionOf r)) = recordsOf "default".toList exServer.filters.content :=
  C119_view _ 134 (exClient_release _) (by decide) _ exFilters_channels

example : exServer.filters.content.filter (fun r => gets exEsr (expressionOf r)) = [] := C119_early exEsr 128 exEsr_release (by decide) _ exFilters_channels

example : SingleChain (exAfter.filters.content.filter (fun r => gets (exClient "default".toList) (expressionOf r))) :=
  ((C119_client exWorld channels exServer exAfter exWorld_sound exFilters_sound exFilters_channels (by unfold PlainSlug; decide) exMain (exClient "default".toList) 134 (exClient_release _) (by decide)).1
    ⟨"default".toList, "clubcard-all".toList, 45 * 86400, true⟩ (by decide) rfl rfl exR2 (by decide +kernel)).1

example : gets exEsr (expressionOf ⟨some ['i'], some false, none, none, [], none⟩) = true := (C119_old_fails exEsr _ rfl).1

theorem exOps_plain : ∀ r ∈ exOpsState.recs, ∀ c, r.channel = some c → PlainSlug c := by
  have h : ∀ r ∈ exOpsState.recs, r.channel = some "default".toList := by decide +kernel
  intro r hr c hc
  rw [h r hr, Option.some.injEq] at hc
  subst hc
  unfold PlainSlug
  decide

example : exOpsState.recs.filter (fun r => gets (exClient "default".toList) (expressionOf r)) = recordsOf "default".toList exOpsState.recs :=
  C119_history exOpsState exState_reach exOps_plain (exClient "default".toList) 134 (exClient_release _) (by decide)

theorem exOps_view : [exRec0, exRec1].Perm (exOpsState.recs.filter (fun r => gets (exClient "default".toList) (expressionOf r))) := by
  rw [C119_history exOpsState exState_reach exOps_plain (exClient "default".toList) 134 (exClient_release _) (by decide)]
  exact exState_perm

/-- The client of the example answers Revoked for the certificate with serial 2 … -/
example : clientQuery (fun _ => List.replicate 32 7) (fun d => some ⟨[9], d⟩) (fun _ => true) (cardHas exEnrolls exContains) [⟨(exOut 0).filter, exCov 0⟩, ⟨(exOut 1).deltaFilter, exCov 0⟩] exInter (exClientCert 500 [2]) = .revoked := by
  refine C119_revoked_partial exDec exCard exBuild exContains exEnrolls exEnrolls_input (fun l => l) exInputOf (fun _ => []) (fun _ => exCov 0) (fun _ => List.replicate 32 7) (fun d => some ⟨[9], d⟩) (fun _ => true) exInter exOpsState exState_reach
    (fun y a prev _ => exState_generates y a prev) exOps_plain (exClient "default".toList) 134 (exClient_release _) (by decide) exSlug [exRec0, exRec1] exOps_view exState_chain _ exState_cards (exClientCert 500 [2]) [5] (by decide) rfl ?_ ?_
  · intro runs z hruns hz a prev hm
    rw [exState_runs runs hruns] at hz
    have hz : "20240102-0".toList = z := by simpa using hz
    subst hz
    rcases exMade hm with ⟨_, rfl⟩ | ⟨e, _⟩
    · rw [exInputOf_1]
      exact ⟨⟨_, List.mem_singleton.2 rfl, rfl, _, List.mem_singleton.2 rfl, by decide⟩, ⟨_, List.mem_singleton.2 rfl, rfl, _, rfl, 4, by decide, trivial⟩⟩
    · exact absurd e (by decide +kernel)
  · intro _ _ _ _ _ _ _ _ _
    exact ⟨([1], 500), List.mem_singleton.2 rfl, 0, 1000, if_pos rfl, by decide, by decide⟩

/-- … and something else for the one with serial 3. -/
example : clientQuery (fun _ => List.replicate 32 7) (fun d => some ⟨[9], d⟩) (fun _ => true) (cardHas exEnrolls exContains) [⟨(exOut 0).filter, exCov 0⟩, ⟨(exOut 1).deltaFilter, exCov 0⟩] exInter (exClientCert 1500 [3]) ≠ .revoked :=
  C119_not_revoked exDec exCard exBuild exContains exEnrolls exEnrolls_input (fun l => l) exInputOf (fun _ => []) (fun _ => exCov 0) (fun _ => List.replicate 32 7) (fun d => some ⟨[9], d⟩) (fun _ => true) exInter exOpsState exState_reach
    (fun y a prev _ => exState_generates y a prev) exOps_plain (exClient "default".toList) 134 (exClient_release _) (by decide) exSlug [exRec0, exRec1] exOps_view exState_chain _ exState_cards (exClientCert 1500 [3]) [5] (by decide) exState_unrevoked
    (fun _ _ _ _ _ _ _ h => absurd h exUncovered)

end Verif.Props
