import Verif.Spec.Signing
import Verif.Props.Publisher
import Verif.Props.Collections
/-!
Properties C84 and C85: review and signature.
-/
namespace Verif.Props
open Verif.Spec

theorem snoc_induction {β : Type} {P : List β → Prop} (h0 : P []) (hs : ∀ l a, P l → P (l ++ [a])) (l : List β) : P l := by
  have : ∀ r : List β, P r.reverse := by
    intro r
    induction r with
    | nil => exact h0
    | cons a r ih => rw [List.reverse_cons]; exact hs _ _ ih
  have h := this l.reverse
  rwa [List.reverse_reverse] at h

/-! ### C84 -/

section Clients
variable {α : Type}

theorem run_snoc (s : CollSys α) (evs : List (CollEvent α)) (e : CollEvent α) : s.run (evs ++ [e]) = (s.run evs).step e := by
  unfold CollSys.run
  rw [List.foldl_append]
  rfl

/-- Client `k` read the collection, nothing was changed since; `c` is the content. -/
def Looked (start : CollSys α) (evs : List (CollEvent α)) (k : Nat) (c : α) : Prop :=
  ∃ before between, evs = before ++ .look k :: between ∧ (start.run before).coll.content = c ∧ NoEdits between

/-- Review was asked for by a client that had looked, nothing was changed since. -/
def Asked (start : CollSys α) (evs : List (CollEvent α)) (c : α) : Prop :=
  ∃ before k between mid, evs = before ++ .look k :: (between ++ .askReview k :: mid) ∧ (start.run before).coll.content = c ∧ NoEdits between ∧ NoEdits mid

structure SignInv (start : CollSys α) (evs : List (CollEvent α)) : Prop where
  seen : ∀ k v, (start.run evs).seen k = some v → v.version ≤ (start.run evs).coll.version ∧
    (v.version = (start.run evs).coll.version → v.status = (start.run evs).coll.status ∧ Looked start evs k (start.run evs).coll.content)
  review : (start.run evs).coll.status = .toReview → Asked start evs (start.run evs).coll.content
  signed : ∀ c, (start.run evs).coll.signed = some c → ReviewedThenSigned start c evs

theorem noEdits_snoc {evs : List (CollEvent α)} {e : CollEvent α} (h : NoEdits evs) (he : ∀ c, e ≠ .edit c) : NoEdits (evs ++ [e]) := by
  intro x hx c
  rcases List.mem_append.1 hx with hx | hx
  · exact h x hx c
  · rw [List.mem_singleton.1 hx]; exact he c

theorem looked_snoc {start : CollSys α} {evs : List (CollEvent α)} {e : CollEvent α} {k : Nat} {c : α} (h : Looked start evs k c) (he : ∀ c, e ≠ .edit c) : Looked start (evs ++ [e]) k c := by
  obtain ⟨a, b, h1, h2, h3⟩ := h
  exact ⟨a, b ++ [e], by rw [h1]; simp, h2, noEdits_snoc h3 he⟩

theorem asked_snoc {start : CollSys α} {evs : List (CollEvent α)} {e : CollEvent α} {c : α} (h : Asked start evs c) (he : ∀ c, e ≠ .edit c) : Asked start (evs ++ [e]) c := by
  obtain ⟨a, k, b, m, h1, h2, h3, h4⟩ := h
  exact ⟨a, k, b, m ++ [e], by rw [h1]; simp, h2, h3, noEdits_snoc h4 he⟩

theorem signed_snoc {start : CollSys α} {evs : List (CollEvent α)} {e : CollEvent α} {c : α} (h : ReviewedThenSigned start c evs) : ReviewedThenSigned start c (evs ++ [e]) := by
  obtain ⟨a, k, b, m, j, p, h1, h2⟩ := h
  exact ⟨a, k, b, m, j, p ++ [e], by rw [h1]; simp, h2⟩

theorem signInv (c0 : α) (evs : List (CollEvent α)) : SignInv (CollSys.init c0) evs := by
  induction evs using snoc_induction with
  | h0 =>
    refine ⟨?_, ?_, ?_⟩
    · intro k v h; cases h
    · intro h; cases h
    · intro c h; cases h
  | hs evs e ih =>
    generalize hst : CollSys.init c0 = start at ih ⊢
    obtain ⟨i1, i2, i3⟩ := ih
    cases e with
    | edit c =>
      refine ⟨?_, ?_, ?_⟩
      · intro k v h
        rw [run_snoc] at h ⊢
        have := (i1 k v h).1
        change v.version ≤ (start.run evs).coll.version + 1 ∧ (v.version = (start.run evs).coll.version + 1 → _)
        refine ⟨by omega, fun e => by omega⟩
      · intro h; rw [run_snoc] at h; cases h
      · intro d h; rw [run_snoc] at h; exact signed_snoc (i3 d h)
    | look k =>
      have hne : ∀ c, (CollEvent.look k : CollEvent α) ≠ .edit c := fun c h => by cases h
      refine ⟨?_, ?_, ?_⟩
      · intro j v h
        rw [run_snoc] at h ⊢
        change setSeen _ k _ j = some v at h
        unfold setSeen at h
        split at h
        · rename_i hj
          rw [Option.some.injEq] at h
          subst h
          refine ⟨Nat.le_refl _, fun _ => ⟨rfl, evs, [], by rw [hj], rfl, fun e he => (by cases he)⟩⟩
        · obtain ⟨a, b⟩ := i1 j v h
          exact ⟨a, fun e => ⟨(b e).1, looked_snoc (b e).2 hne⟩⟩
      · intro h; rw [run_snoc] at h ⊢; exact asked_snoc (i2 h) hne
      · intro d h; rw [run_snoc] at h; exact signed_snoc (i3 d h)
    | askReview k =>
      have hne : ∀ c, (CollEvent.askReview k : CollEvent α) ≠ .edit c := fun c h => by cases h
      have keep : (start.run (evs ++ [.askReview k])).coll = (start.run evs).coll → (∀ j v, (start.run (evs ++ [.askReview k])).seen j = some v → (start.run evs).seen j = some v) → SignInv start (evs ++ [.askReview k]) := by
        intro hc hs
        refine ⟨?_, ?_, ?_⟩
        · intro j v h
          rw [hc]
          obtain ⟨a, b⟩ := i1 j v (hs j v h)
          exact ⟨a, fun e => ⟨(b e).1, looked_snoc (b e).2 hne⟩⟩
        · rw [hc]; intro h; exact asked_snoc (i2 h) hne
        · rw [hc]; intro d h; exact signed_snoc (i3 d h)
      have sub : ∀ j v, setSeen (start.run evs).seen k none j = some v → (start.run evs).seen j = some v := by
        intro j v h
        unfold setSeen at h
        split at h
        · cases h
        · exact h
      cases hk : (start.run evs).seen k with
      | none =>
        have e1 : start.run (evs ++ [.askReview k]) = start.run evs := by rw [run_snoc]; unfold CollSys.step; dsimp only; rw [hk]
        exact keep (by rw [e1]) (fun j v h => by rw [e1] at h; exact h)
      | some v =>
        have e1 : start.run (evs ++ [.askReview k]) = ⟨(start.run evs).coll.askReview v, setSeen (start.run evs).seen k none⟩ := by rw [run_snoc]; unfold CollSys.step; dsimp only; rw [hk]
        obtain ⟨hv, hl⟩ := i1 k v hk
        by_cases hc : v.status = .workInProgress ∧ v.version = (start.run evs).coll.version
        · have e2 : (start.run evs).coll.askReview v = { (start.run evs).coll with status := .toReview, version := (start.run evs).coll.version + 1 } := by
            unfold Coll.askReview; rw [if_pos hc.1, if_pos hc.2]
          refine ⟨?_, ?_, ?_⟩
          · intro j w h
            rw [e1, e2] at h ⊢
            have := (i1 j w (sub j w h)).1
            change w.version ≤ (start.run evs).coll.version + 1 ∧ (w.version = (start.run evs).coll.version + 1 → _)
            exact ⟨by omega, fun e => by omega⟩
          · intro _
            rw [e1, e2]
            obtain ⟨_, b, m, h1, h2, h3⟩ := hl hc.2
            exact ⟨b, k, m, [], by rw [h1]; simp, h2, h3, fun e he => (by cases he)⟩
          · intro d h
            rw [e1, e2] at h
            exact signed_snoc (i3 d h)
        · have e2 : (start.run evs).coll.askReview v = (start.run evs).coll := by
            unfold Coll.askReview
            split
            · split
              · rename_i a b; exact absurd ⟨a, b⟩ hc
              · rfl
            · rfl
          exact keep (by rw [e1, e2]) (fun j w h => by rw [e1] at h; exact sub j w h)
    | sign k =>
      have hne : ∀ c, (CollEvent.sign k : CollEvent α) ≠ .edit c := fun c h => by cases h
      have keep : (start.run (evs ++ [.sign k])).coll = (start.run evs).coll → (∀ j v, (start.run (evs ++ [.sign k])).seen j = some v → (start.run evs).seen j = some v) → SignInv start (evs ++ [.sign k]) := by
        intro hc hs
        refine ⟨?_, ?_, ?_⟩
        · intro j v h
          rw [hc]
          obtain ⟨a, b⟩ := i1 j v (hs j v h)
          exact ⟨a, fun e => ⟨(b e).1, looked_snoc (b e).2 hne⟩⟩
        · rw [hc]; intro h; exact asked_snoc (i2 h) hne
        · rw [hc]; intro d h; exact signed_snoc (i3 d h)
      have sub : ∀ j v, setSeen (start.run evs).seen k none j = some v → (start.run evs).seen j = some v := by
        intro j v h
        unfold setSeen at h
        split at h
        · cases h
        · exact h
      cases hk : (start.run evs).seen k with
      | none =>
        have e1 : start.run (evs ++ [.sign k]) = start.run evs := by rw [run_snoc]; unfold CollSys.step; dsimp only; rw [hk]
        exact keep (by rw [e1]) (fun j v h => by rw [e1] at h; exact h)
      | some v =>
        have e1 : start.run (evs ++ [.sign k]) = ⟨(start.run evs).coll.sign v, setSeen (start.run evs).seen k none⟩ := by rw [run_snoc]; unfold CollSys.step; dsimp only; rw [hk]
        obtain ⟨hv, hl⟩ := i1 k v hk
        by_cases hc : v.status = .toReview ∧ v.version = (start.run evs).coll.version
        · have e2 : (start.run evs).coll.sign v = { (start.run evs).coll with status := .signed, version := (start.run evs).coll.version + 1, signed := some (start.run evs).coll.content } := by
            unfold Coll.sign; rw [if_pos hc.1, if_pos hc.2]
          refine ⟨?_, ?_, ?_⟩
          · intro j w h
            rw [e1, e2] at h ⊢
            have := (i1 j w (sub j w h)).1
            change w.version ≤ (start.run evs).coll.version + 1 ∧ (w.version = (start.run evs).coll.version + 1 → _)
            exact ⟨by omega, fun e => by omega⟩
          · intro h
            rw [e1, e2] at h
            cases h
          · intro d h
            rw [e1, e2] at h
            change some (start.run evs).coll.content = some d at h
            rw [Option.some.injEq] at h
            rw [← h]
            obtain ⟨hst', _⟩ := hl hc.2
            obtain ⟨b, k', bt, m, h1, h2, h3, h4⟩ := i2 (by rw [← hst']; exact hc.1)
            exact ⟨b, k', bt, m, k, [], by rw [h1]; simp, h2, h3, h4⟩
        · have e2 : (start.run evs).coll.sign v = (start.run evs).coll := by
            unfold Coll.sign
            split
            · split
              · rename_i a b; exact absurd ⟨a, b⟩ hc
              · rfl
            · rfl
          exact keep (by rw [e1, e2]) (fun j w h => by rw [e1] at h; exact sub j w h)

/-- **C84 (any clients).** Whatever any number of publishers, sign-off jobs and editors do in any order: a content that clients see was, unchanged, what somebody looked at and then asked review for, and it was not changed until it was signed. -/
theorem C84_signed_was_reviewed (c0 : α) (evs : List (CollEvent α)) (c : α) (h : ((CollSys.init c0).run evs).coll.signed = some c) : ReviewedThenSigned (CollSys.init c0) c evs :=
  (signInv c0 evs).signed c h

end Clients

example : ((CollSys.init 0).run [.edit 1, .look 5, .askReview 5, .look 6, .look 7, .edit 2, .sign 6, .look 5, .askReview 5, .sign 7, .look 7, .sign 7]).coll.signed = some 2 ∧
    ((CollSys.init 0).run [.edit 1, .look 5, .askReview 5, .look 6, .look 7, .edit 2, .sign 6, .look 5, .askReview 5, .sign 7]).coll.signed = none := by decide +kernel

section OnePublisher
variable {α : Type} [DecidableEq α]

theorem pubRun_snoc (s : PubSys α) (evs : List (PubSysEvent α)) (e : PubSysEvent α) : s.run (evs ++ [e]) = (s.run evs).step e := by
  unfold PubSys.run
  rw [List.foldl_append]
  rfl

theorem outcome_snoc {start : PubSys α} {evs : List (PubSysEvent α)} {c : α} (e : PubSysEvent α) (h : OutcomeOf start c evs) : OutcomeOf start c (evs ++ [e]) := by
  obtain ⟨b, f, t, a, h1, h2⟩ := h
  exact ⟨b, f, t, a ++ [e], by rw [h1]; simp, h2⟩

structure PubInv (start : PubSys α) (evs : List (PubSysEvent α)) (s : PubSys α) : Prop where
  due : s.due = true → OutcomeOf start s.coll.content evs
  pub : s.pubSeen ≠ none → OutcomeOf start s.coll.content evs
  review : s.coll.status = .toReview → OutcomeOf start s.coll.content evs
  sign : ∀ v, s.signSeen = some v → v.version ≤ s.coll.version ∧ (v.version = s.coll.version → v.status = s.coll.status)
  signed : ∀ c, s.coll.signed = some c → OutcomeOf start c evs

theorem publish_content (s : PubSys α) (f : α → α × Bool) (t : Bool) : (s.step (.publish f t)).coll.content = (f s.coll.content).1 := by
  unfold PubSys.step
  dsimp only
  split
  · rfl
  · rename_i h
    simp only [Bool.or_eq_true, decide_eq_true_eq, not_or, Decidable.not_not] at h
    exact h.2.symm

theorem pubInv (c0 : α) (evs : List (PubSysEvent α)) (honly : OnlyPublisher evs) : PubInv (PubSys.init c0) evs ((PubSys.init c0).run evs) := by
  induction evs using snoc_induction with
  | h0 =>
    refine ⟨?_, ?_, ?_, ?_, ?_⟩
    · intro h; cases h
    · intro h; exact absurd rfl h
    · intro h; cases h
    · intro v h; cases h
    · intro c h; cases h
  | hs evs e ih =>
    have ih := ih (fun x hx => honly x (List.mem_append.2 (Or.inl hx)))
    rw [pubRun_snoc]
    generalize hs : (PubSys.init c0).run evs = s at ih ⊢
    obtain ⟨i1, i2, i3, i4, i5⟩ := ih
    cases e with
    | publish f t =>
      have hc := publish_content s f t
      have hout : (f s.coll.content).2 = true → OutcomeOf (PubSys.init c0) (f s.coll.content).1 (evs ++ [.publish f t]) := by
        intro h
        refine ⟨evs, f, t, [], by simp, ?_⟩
        rw [hs]
        exact Prod.ext rfl h
      have hcoll : (s.step (.publish f t)).coll = s.coll ∨ (s.step (.publish f t)).coll = s.coll.edit (f s.coll.content).1 := by
        unfold PubSys.step
        dsimp only
        split
        · exact Or.inr rfl
        · exact Or.inl rfl
      refine ⟨?_, ?_, ?_, ?_, ?_⟩
      · intro h; rw [hc]; exact hout h
      · intro h; exact absurd rfl h
      · intro h
        rcases hcoll with e | e
        · rw [e] at h ⊢; exact outcome_snoc _ (i3 h)
        · rw [e] at h; cases h
      · intro v hv
        have hv' := i4 v hv
        rcases hcoll with e | e
        · rw [e]; exact hv'
        · rw [e]
          change v.version ≤ s.coll.version + 1 ∧ (v.version = s.coll.version + 1 → _)
          exact ⟨by omega, fun _ => by omega⟩
      · intro c h
        rcases hcoll with e | e
        · rw [e] at h; exact outcome_snoc _ (i5 c h)
        · rw [e] at h; exact outcome_snoc _ (i5 c h)
    | edit c => exact absurd rfl (honly (.edit c) (by simp) c)
    | pubLook =>
      by_cases hd : s.due = true
      · have e : s.step .pubLook = { s with pubSeen := some s.coll.look } := by unfold PubSys.step; dsimp only; rw [if_pos hd]
        rw [e]
        exact ⟨fun h => outcome_snoc _ (i1 h), fun _ => outcome_snoc _ (i1 hd), fun h => outcome_snoc _ (i3 h), i4, fun c h => outcome_snoc _ (i5 c h)⟩
      · have e : s.step .pubLook = s := by unfold PubSys.step; dsimp only; rw [if_neg hd]
        rw [e]
        exact ⟨fun h => outcome_snoc _ (i1 h), fun h => outcome_snoc _ (i2 h), fun h => outcome_snoc _ (i3 h), i4, fun c h => outcome_snoc _ (i5 c h)⟩
    | pubAsk =>
      cases hp : s.pubSeen with
      | none =>
        have e : s.step .pubAsk = s := by unfold PubSys.step; dsimp only; rw [hp]
        rw [e]
        exact ⟨fun h => outcome_snoc _ (i1 h), fun h => outcome_snoc _ (i2 h), fun h => outcome_snoc _ (i3 h), i4, fun c h => outcome_snoc _ (i5 c h)⟩
      | some v =>
        have e : s.step .pubAsk = { s with coll := s.coll.askReview v, due := false, pubSeen := none } := by unfold PubSys.step; dsimp only; rw [hp]
        have ho := i2 (by rw [hp]; simp)
        rw [e]
        have hcoll : s.coll.askReview v = s.coll ∨ s.coll.askReview v = { s.coll with status := .toReview, version := s.coll.version + 1 } := by
          unfold Coll.askReview
          split
          · split
            · exact Or.inr rfl
            · exact Or.inl rfl
          · exact Or.inl rfl
        refine ⟨?_, ?_, ?_, ?_, ?_⟩
        · intro h; cases h
        · intro h; exact absurd rfl h
        · intro _
          dsimp only
          rcases hcoll with e | e <;> rw [e] <;> exact outcome_snoc _ ho
        · intro w hw
          have hw' := i4 w hw
          dsimp only
          rcases hcoll with e | e
          · rw [e]; exact hw'
          · rw [e]
            dsimp only
            exact ⟨by omega, fun _ => by omega⟩
        · intro c h
          dsimp only at h
          rcases hcoll with e | e <;> rw [e] at h <;> exact outcome_snoc _ (i5 c h)
    | stop =>
      refine ⟨?_, ?_, fun h => outcome_snoc _ (i3 h), i4, fun c h => outcome_snoc _ (i5 c h)⟩
      · intro h; cases h
      · intro h; exact absurd rfl h
    | signLook =>
      refine ⟨fun h => outcome_snoc _ (i1 h), fun h => outcome_snoc _ (i2 h), fun h => outcome_snoc _ (i3 h), ?_, fun c h => outcome_snoc _ (i5 c h)⟩
      intro v hv
      change some s.coll.look = some v at hv
      rw [Option.some.injEq] at hv
      subst hv
      exact ⟨Nat.le_refl _, fun _ => rfl⟩
    | signPatch =>
      cases hp : s.signSeen with
      | none =>
        have e : s.step .signPatch = s := by unfold PubSys.step; dsimp only; rw [hp]
        rw [e]
        exact ⟨fun h => outcome_snoc _ (i1 h), fun h => outcome_snoc _ (i2 h), fun h => outcome_snoc _ (i3 h), i4, fun c h => outcome_snoc _ (i5 c h)⟩
      | some v =>
        have e : s.step .signPatch = { s with coll := s.coll.sign v, signSeen := none } := by unfold PubSys.step; dsimp only; rw [hp]
        obtain ⟨_, hv⟩ := i4 v hp
        rw [e]
        by_cases hc : v.status = .toReview ∧ v.version = s.coll.version
        · have e2 : s.coll.sign v = { s.coll with status := .signed, version := s.coll.version + 1, signed := some s.coll.content } := by
            unfold Coll.sign; rw [if_pos hc.1, if_pos hc.2]
          rw [e2]
          refine ⟨fun h => outcome_snoc _ (i1 h), fun h => outcome_snoc _ (i2 h), ?_, ?_, ?_⟩
          · intro h; cases h
          · intro w hw; cases hw
          · intro c h
            dsimp only at h
            rw [Option.some.injEq] at h
            rw [← h]
            exact outcome_snoc _ (i3 (by rw [← hv hc.2]; exact hc.1))
        · have e2 : s.coll.sign v = s.coll := by
            unfold Coll.sign
            split
            · split
              · rename_i a b; exact absurd ⟨a, b⟩ hc
              · rfl
            · rfl
          rw [e2]
          refine ⟨fun h => outcome_snoc _ (i1 h), fun h => outcome_snoc _ (i2 h), fun h => outcome_snoc _ (i3 h), ?_, fun c h => outcome_snoc _ (i5 c h)⟩
          intro w hw; cases hw

/-- **C84 (one publisher).** As long as nobody else edits the collection: what is signed is exactly what a publication left that went on to ask for review. However publisher and sign-off job interleave, wherever the publisher dies. -/
theorem C84_signed_is_outcome (c0 : α) (evs : List (PubSysEvent α)) (honly : OnlyPublisher evs) (c : α) (h : ((PubSys.init c0).run evs).coll.signed = some c) : OutcomeOf (PubSys.init c0) c evs :=
  (pubInv c0 evs honly).signed c h

end OnePublisher

/-! #### the filters -/

/-- Every publication is one of a channel by `publish_crlite`, or the removal of a channel. -/
def CrlitePubs (evs : List (PubSysEvent (List KRec))) : Prop :=
  ∀ e ∈ evs, ∀ f t, e = .publish f t → (∃ s : PubStep, GoodStep s ∧ f = crliteRun s.env s.db s.slug s.maxAge s.noop) ∨ ∃ env slug noop, f = clearRun env slug noop

theorem recordsOf_sublist {a b : List KRec} (slug : Text) (h : a.Sublist b) : (recordsOf slug a).Sublist (recordsOf slug b) := h.filter _

theorem tidy_sublist {a b : List KRec} {slug : Text} (h : a.Sublist b) (ht : Tidy slug b) : Tidy slug a := by
  have hs := (recordsOf_sublist slug h).subset
  exact ⟨fun r hr => ht.1 r (hs hr), fun r hr s hsm => ht.2 r (hs hr) s (hs hsm)⟩

theorem clearRun_sublist (env : PubEnv) (slug : Text) (noop : Bool) (st : List KRec) : (clearRun env slug noop st).1.Sublist st ∧ (clearRun env slug noop st).2 = false := by
  unfold clearRun
  cases noop with
  | true => exact ⟨List.Sublist.refl _, rfl⟩
  | false =>
    rw [if_neg (by simp)]
    have h1 := clear_sublist env slug false st st
    cases hc : clearLoop env slug false st st with
    | mk b st1 =>
      rw [hc] at h1
      cases b with
      | false => exact ⟨h1, rfl⟩
      | true => exact ⟨(clear_sublist env slug true st1 st1).trans h1, rfl⟩

theorem step_content {α : Type} [DecidableEq α] (s : PubSys α) (e : PubSysEvent α) (h1 : ∀ f t, e ≠ .publish f t) (h2 : ∀ c, e ≠ .edit c) : (s.step e).coll.content = s.coll.content := by
  unfold PubSys.step
  cases e with
  | publish f t => exact absurd rfl (h1 f t)
  | edit c => exact absurd rfl (h2 c)
  | pubLook => dsimp only; split <;> rfl
  | pubAsk =>
    dsimp only
    split
    · rfl
    · dsimp only; unfold Coll.askReview; split
      · split <;> rfl
      · rfl
  | stop => rfl
  | signLook => rfl
  | signPatch =>
    dsimp only
    split
    · rfl
    · dsimp only; unfold Coll.sign; split
      · split <;> rfl
      · rfl

theorem goodStep_content {s : PubStep} (hg : GoodStep s) {st : List KRec} (hn : (st.map KRec.id).Nodup) (ht : ∀ c, Tidy c st) :
    ((publishCrlite s.env s.db s.slug s.maxAge s.noop st).2.map KRec.id).Nodup ∧ ∀ c, Tidy c (publishCrlite s.env s.db s.slug s.maxAge s.noop st).2 := by
  obtain ⟨g1, g2, g3, g4⟩ := hg
  refine ⟨(C67_other_channels s.env s.db s.slug ('-' :: s.slug) s.maxAge s.noop st g2 (List.cons_ne_self _ _) hn).2, ?_⟩
  intro c
  by_cases hc : c = s.slug
  · subst hc
    exact C67_tidy_kept s.env s.db s.slug s.maxAge s.noop st g1 g2 g3 g4 (ht _)
  · have h := (C67_other_channels s.env s.db s.slug c s.maxAge s.noop st g2 hc hn).1
    unfold Tidy
    rw [h]
    exact ht c

theorem crlite_content (evs : List (PubSysEvent (List KRec))) (honly : OnlyPublisher evs) (hp : CrlitePubs evs) :
    ((((PubSys.init []).run evs).coll.content).map KRec.id).Nodup ∧ ∀ c, Tidy c ((PubSys.init []).run evs).coll.content := by
  induction evs using snoc_induction with
  | h0 =>
    refine ⟨by show ([] : List _).Nodup; simp, fun c => ⟨?_, ?_⟩⟩
    · intro r hr; cases hr
    · intro r hr; cases hr
  | hs evs e ih =>
    obtain ⟨i1, i2⟩ := ih (fun x hx => honly x (List.mem_append.2 (Or.inl hx))) (fun x hx => hp x (List.mem_append.2 (Or.inl hx)))
    rw [pubRun_snoc]
    by_cases he : ∃ f t, e = .publish f t
    · obtain ⟨f, t, rfl⟩ := he
      rw [publish_content]
      rcases hp _ (by simp) f t rfl with ⟨s, hg, rfl⟩ | ⟨env, slug, noop, rfl⟩
      · exact goodStep_content hg i1 i2
      · have hsub := (clearRun_sublist env slug noop ((PubSys.init []).run evs).coll.content).1
        exact ⟨i1.sublist (hsub.map _), fun c => tidy_sublist hsub (i2 c)⟩
    · rw [step_content _ _ (fun f t h => he ⟨f, t, h⟩) (honly e (by simp))]
      exact ⟨i1, i2⟩

theorem crliteAsks_true {env : PubEnv} {db : RunDb} {slug : Text} {maxAge : Nat} {noop : Bool} {st : List KRec} (h : crliteAsks env db slug maxAge noop st = true) :
    ∃ newest, db.ids.getLast? = some newest ∧ db.ready newest = true ∧ noop = false ∧ (publishCrlite env db slug maxAge noop st).1 = true := by
  unfold crliteAsks at h
  cases hn : db.ids.getLast? with
  | none => rw [hn] at h; cases h
  | some newest =>
    rw [hn] at h
    simp only [Bool.and_eq_true, Bool.not_eq_true'] at h
    exact ⟨newest, rfl, h.1.1.1, h.1.1.2, h.2⟩

/-- **C84 (filters).** From an empty collection, through any publications and removals of channels with any failures, crashes and interleavings with the sign-off job: the signed content is what a publication of some channel left, and in it the
records of that channel are a single chain. -/
theorem C84_signed_chain (evs : List (PubSysEvent (List KRec))) (honly : OnlyPublisher evs) (hp : CrlitePubs evs) (c : List KRec) (h : ((PubSys.init []).run evs).coll.signed = some c) :
    ∃ before s t after, evs = before ++ .publish (crliteRun s.env s.db s.slug s.maxAge s.noop) t :: after ∧ GoodStep s ∧
      publishCrlite s.env s.db s.slug s.maxAge s.noop ((PubSys.init []).run before).coll.content = (true, c) ∧ SingleChain (recordsOf s.slug c) := by
  obtain ⟨before, f, t, after, h1, h2⟩ := C84_signed_is_outcome [] evs honly c h
  have hmem : PubSysEvent.publish f t ∈ evs := by rw [h1]; simp
  rcases hp _ hmem f t rfl with ⟨s, hg, rfl⟩ | ⟨env, slug, noop, rfl⟩
  · have hb : ∀ x ∈ before, x ∈ evs := by intro x hx; rw [h1]; simp [hx]
    obtain ⟨b1, b2⟩ := crlite_content before (fun x hx => honly x (hb x hx)) (fun x hx => hp x (hb x hx))
    unfold crliteRun at h2
    rw [Prod.mk.injEq] at h2
    obtain ⟨newest, n1, n2, n3, n4⟩ := crliteAsks_true h2.2
    have hpub : publishCrlite s.env s.db s.slug s.maxAge s.noop ((PubSys.init []).run before).coll.content = (true, c) := Prod.ext n4 h2.1
    refine ⟨before, s, t, after, h1, hg, hpub, ?_⟩
    rw [n3] at hpub
    obtain ⟨v1, v2⟩ := C67_accepted_after s.env s.db s.slug s.maxAge newest _ c hg.1 hg.2.1 (b2 _) n1 n2 hpub
    exact ((C66_accepts_iff _).1 v1).resolve_left v2
  · have := (clearRun_sublist env slug noop ((PubSys.init []).run before).coll.content).2
    rw [h2] at this
    cases this

/-- Every publication in the history succeeded, or changed nothing. -/
def AllWell (evs : List (PubSysEvent (List KRec))) : Prop :=
  ∀ before f t after, evs = before ++ .publish f t :: after →
    (∃ s : PubStep, GoodStep s ∧ f = crliteRun s.env s.db s.slug s.maxAge s.noop ∧ (publishCrlite s.env s.db s.slug s.maxAge s.noop ((PubSys.init []).run before).coll.content).1 = true) ∨
    ∃ env slug noop, f = clearRun env slug noop ∧ recordsOf slug (clearRun env slug noop ((PubSys.init []).run before).coll.content).1 = []

theorem clearRun_other (env : PubEnv) (slug other : Text) (noop : Bool) (st : List KRec) (hne : other ≠ slug) (hn : (st.map KRec.id).Nodup) : recordsOf other (clearRun env slug noop st).1 = recordsOf other st := by
  have key : ∀ l st : List KRec, l.Sublist st → (st.map KRec.id).Nodup → ∀ incr, recordsOf other (clearLoop env slug incr l st).2 = recordsOf other st := by
    intro l st hl hn incr
    refine clear_other env slug other incr l st ?_
    intro r hr x hx hrc hxc e
    have hrx := eq_of_nodup_map KRec.id hn (hl.subset hr) hx e
    rw [hrx] at hrc
    exact hne ((of_decide_eq_true hxc).symm.trans (of_decide_eq_true hrc))
  unfold clearRun
  cases noop with
  | true => rfl
  | false =>
    rw [if_neg (by simp)]
    have h1 := clear_sublist env slug false st st
    have h2 := key st st (List.Sublist.refl _) hn false
    cases hc : clearLoop env slug false st st with
    | mk b st1 =>
      rw [hc] at h1 h2
      dsimp only at h1 h2
      cases b with
      | false => exact h2
      | true =>
        dsimp only
        rw [← h2]
        exact key st1 st1 (List.Sublist.refl _) (hn.sublist (h1.map _)) true

/-- **C84, all channels (partial).** Full statement: in the signed content, the records of *every* channel are a single chain, or there are none because the channel is not in use. This holds as long as every publication went well; see `C84_other_channel_fails`. -/
theorem C84_every_channel_partial (evs : List (PubSysEvent (List KRec))) (honly : OnlyPublisher evs) (hw : AllWell evs) (c : List KRec) (h : ((PubSys.init []).run evs).coll.signed = some c) (slug : Text) :
    recordsOf slug c = [] ∨ SingleChain (recordsOf slug c) := by
  have hp : ∀ evs, AllWell evs → CrlitePubs evs := by
    intro evs hw e he f t hf
    obtain ⟨b, a, hba⟩ := List.append_of_mem he
    rw [hf] at hba
    rcases hw b f t a hba with ⟨s, hg, e, _⟩ | ⟨env, slug, noop, e, _⟩
    · exact Or.inl ⟨s, hg, e⟩
    · exact Or.inr ⟨env, slug, noop, e⟩
  have key : ∀ evs, OnlyPublisher evs → AllWell evs → ∀ slug, recordsOf slug ((PubSys.init []).run evs).coll.content = [] ∨ SingleChain (recordsOf slug ((PubSys.init []).run evs).coll.content) := by
    intro evs
    induction evs using snoc_induction with
    | h0 => intro _ _ slug; exact Or.inl rfl
    | hs evs e ih =>
      intro honly hw slug
      have ho' : OnlyPublisher evs := fun x hx => honly x (List.mem_append.2 (Or.inl hx))
      have hw' : AllWell evs := fun b f t a hba => hw b f t (a ++ [e]) (by rw [hba]; simp)
      have ih := ih ho' hw' slug
      obtain ⟨b1, b2⟩ := crlite_content evs ho' (hp evs hw')
      rw [pubRun_snoc]
      by_cases he : ∃ f t, e = .publish f t
      · obtain ⟨f, t, rfl⟩ := he
        rw [publish_content]
        rcases hw evs f t [] rfl with ⟨s, hg, rfl, hok⟩ | ⟨env, slug', noop, rfl, hcl⟩
        · change recordsOf slug (publishCrlite s.env s.db s.slug s.maxAge s.noop _).2 = [] ∨ SingleChain (recordsOf slug (publishCrlite s.env s.db s.slug s.maxAge s.noop _).2)
          by_cases hc : slug = s.slug
          · subst hc
            cases hpub : publishCrlite s.env s.db s.slug s.maxAge s.noop ((PubSys.init []).run evs).coll.content with
            | mk b st' =>
              rw [hpub] at hok
              cases hok
              cases hnoop : s.noop with
              | true =>
                have := C67_noop s.env s.db s.slug s.maxAge ((PubSys.init []).run evs).coll.content
                rw [hnoop] at hpub
                rw [hpub] at this
                dsimp only at this ⊢
                rw [this]
                exact ih
              | false =>
                rw [hnoop] at hpub
                cases hnew : s.db.ids.getLast? with
                | none =>
                  unfold publishCrlite at hpub
                  dsimp only at hpub
                  rw [hnew] at hpub
                  dsimp only at hpub
                  rw [Prod.mk.injEq] at hpub
                  dsimp only
                  rw [← hpub.2]
                  exact ih
                | some newest =>
                  by_cases hready : s.db.ready newest = true
                  · exact (C66_accepts_iff _).1 (C67_accepted_after s.env s.db s.slug s.maxAge newest _ st' hg.1 hg.2.1 (b2 _) hnew hready hpub).1
                  · unfold publishCrlite at hpub
                    dsimp only at hpub
                    rw [hnew] at hpub
                    dsimp only at hpub
                    rw [if_neg hready, Prod.mk.injEq] at hpub
                    dsimp only
                    rw [← hpub.2]
                    exact ih
          · rw [(C67_other_channels s.env s.db s.slug slug s.maxAge s.noop _ hg.2.1 hc b1).1]
            exact ih
        · by_cases hc : slug = slug'
          · subst hc; exact Or.inl hcl
          · rw [clearRun_other env slug' slug noop _ hc b1]
            exact ih
      · rw [step_content _ _ (fun f t h => he ⟨f, t, h⟩) (honly e (by simp))]
        exact ih
  obtain ⟨before, s, t, after, h1, hg, h2, _⟩ := C84_signed_chain evs honly (hp evs hw) c h
  have hb : ∀ x ∈ before ++ [PubSysEvent.publish (crliteRun s.env s.db s.slug s.maxAge s.noop) t], x ∈ evs := by
    intro x hx
    rw [h1]
    rcases List.mem_append.1 hx with hx | hx
    · simp [hx]
    · rw [List.mem_singleton.1 hx]; simp
  have := key (before ++ [.publish (crliteRun s.env s.db s.slug s.maxAge s.noop) t]) (fun x hx => honly x (hb x hx)) (fun b f t' a hba => hw b f t' (a ++ after) (by
    have e : evs = (before ++ [.publish (crliteRun s.env s.db s.slug s.maxAge s.noop) t]) ++ after := by rw [h1]; simp
    rw [e, hba]; simp)) slug
  rw [pubRun_snoc, publish_content] at this
  have e : (crliteRun s.env s.db s.slug s.maxAge s.noop ((PubSys.init []).run before).coll.content).1 = c := by
    unfold crliteRun
    dsimp only
    rw [h2]
  rw [e] at this
  exact this

/-! #### the intermediates -/

/-- **C84 (intermediates).** As long as nobody but the publisher edits the collection outside of its runs: the signed content has exactly one record for every certificate of the local list of some publication, and nothing else. -/
theorem C84_signed_intermediates (c0 : List InterRec) (evs : List (PubSysEvent (List InterRec))) (honly : OnlyPublisher evs) (hp : ∀ f t, .publish f t ∈ evs → ∃ env entries noop, f = interRun env entries noop) (c : List InterRec)
    (h : ((PubSys.init c0).run evs).coll.signed = some c) :
    ∃ env entries noop t, .publish (interRun env entries noop) t ∈ evs ∧ (∀ r ∈ c, ∃ i, r.entry = some i ∧ some i ∈ entries) ∧ (∀ i, some i ∈ entries → ∃ r ∈ c, r.entry = some i) ∧ (c.map InterRec.entry).Nodup := by
  obtain ⟨before, f, t, after, h1, h2⟩ := C84_signed_is_outcome c0 evs honly c h
  have hmem : PubSysEvent.publish f t ∈ evs := by rw [h1]; simp
  obtain ⟨env, entries, noop, rfl⟩ := hp f t hmem
  refine ⟨env, entries, noop, t, hmem, ?_⟩
  unfold interRun at h2
  rw [Prod.mk.injEq] at h2
  exact C70_review env entries noop _ c (Prod.ext h2.2 h2.1)

example : ((PubSys.init exInterSt).run [.publish (interRun exInterEnv [some (exI 1), none, some (exI 3), some (exI 3)] false) true, .pubLook, .pubAsk, .signLook, .signPatch]).coll.signed =
    some [⟨['a'], some (exI 1)⟩, ⟨List.replicate 11 'f', some (exI 3)⟩] := by decide +kernel

/-- **C84 fails if others edit.** The publisher compares the collection with the local list, and then asks for review of whatever is there: an edit in between gets signed. -/
theorem C84_foreign_edit_fails : ((PubSys.init exInterSt).run [.publish (interRun exInterEnv [some (exI 1)] false) true, .edit exInterSt, .pubLook, .pubAsk, .signLook, .signPatch]).coll.signed = some exInterSt ∧
    (publishInters exInterEnv [some (exI 1)] false exInterSt).2 ≠ exInterSt := by decide +kernel

/-! #### what goes wrong -/

/-- Creating records fails. -/
def exPubNoCreate : PubEnv := { exPub with outcome := fun _ => .createFails }

/-- A run of the publisher for the other channel, which takes a new full filter after two units of time. -/
def exCompat (env : PubEnv) (ids : List Text) : PubStep := ⟨env, exDb ids, "compat".toList, 2, false⟩

def exEvent (s : PubStep) : PubSysEvent (List KRec) := .publish (crliteRun s.env s.db s.slug s.maxAge s.noop) false

/-- Both channels are published and signed. -/
def exGood : List (PubSysEvent (List KRec)) :=
  [exEvent (exStep exPub [exR1]), .pubLook, .pubAsk, exEvent (exCompat exPub [exR1]), .pubLook, .pubAsk, .signLook, .signPatch]

/-- The other channel is cleared for a new full filter, and creating it fails; the next run publishes a delta for the first channel and asks for review. -/
def exBad : List (PubSysEvent (List KRec)) :=
  exGood ++ [exEvent (exCompat exPubNoCreate [exR1, exR2, exR3]), .stop, exEvent (exStep exPub [exR1, exR2, exR3]), .pubLook, .pubAsk, .signLook, .signPatch]

theorem exCompat_good (env : PubEnv) (h : env.freshId = exFresh) (ids : List Text) (hids : ids = [exR1] ∨ ids = [exR1, exR2] ∨ ids = [exR1, exR2, exR3]) : GoodStep (exCompat env ids) :=
  ⟨by show ∀ c ∈ "compat".toList, c ≠ '-'; decide +kernel, (exStep_good env h ids hids).2⟩

theorem exBad_pubs : OnlyPublisher exBad ∧ CrlitePubs exBad := by
  constructor
  · intro e he c h
    subst h
    simp [exBad, exGood, exEvent] at he
  · intro e he f t h
    subst h
    simp only [exBad, exGood, exEvent, List.mem_append, List.mem_cons, PubSysEvent.publish.injEq, List.not_mem_nil, reduceCtorEq, or_false, false_or] at he
    rcases he with (he | he) | he | he
    · exact Or.inl ⟨_, exStep_good exPub rfl _ (Or.inl rfl), he.1⟩
    · exact Or.inl ⟨_, exCompat_good exPub rfl _ (Or.inl rfl), he.1⟩
    · exact Or.inl ⟨_, exCompat_good exPubNoCreate rfl _ (Or.inr (Or.inr rfl)), he.1⟩
    · exact Or.inl ⟨_, exStep_good exPub rfl _ (Or.inr (Or.inr rfl)), he.1⟩

example : (((PubSys.init []).run exGood).coll.signed.getD []).map KRec.attachment = [some "20240101-9-default.filter".toList, some "20240101-9-compat.filter".toList] := by decide +kernel

theorem split_cons {β : Type} {e x : β} {l before after : List β} (h : e :: l = before ++ x :: after) : (before = [] ∧ e = x) ∨ ∃ b, before = e :: b ∧ l = b ++ x :: after := by
  cases before with
  | nil => left; rw [List.nil_append, List.cons.injEq] at h; exact ⟨rfl, h.1⟩
  | cons y b => right; rw [List.cons_append, List.cons.injEq] at h; exact ⟨b, by rw [h.1], h.2⟩

theorem exGood_well : AllWell exGood := by
  intro before f t after h0
  unfold exGood exEvent at h0
  rcases split_cons h0 with ⟨rfl, e⟩ | ⟨b1, rfl, h1⟩
  · rw [PubSysEvent.publish.injEq] at e
    exact Or.inl ⟨exStep exPub [exR1], exStep_good exPub rfl _ (Or.inl rfl), e.1.symm, by decide +kernel⟩
  rcases split_cons h1 with ⟨_, e⟩ | ⟨b2, rfl, h2⟩
  · cases e
  rcases split_cons h2 with ⟨_, e⟩ | ⟨b3, rfl, h3⟩
  · cases e
  rcases split_cons h3 with ⟨rfl, e⟩ | ⟨b4, rfl, h4⟩
  · rw [PubSysEvent.publish.injEq] at e
    exact Or.inl ⟨exCompat exPub [exR1], exCompat_good exPub rfl _ (Or.inl rfl), e.1.symm, by decide +kernel⟩
  rcases split_cons h4 with ⟨_, e⟩ | ⟨b5, rfl, h5⟩
  · cases e
  rcases split_cons h5 with ⟨_, e⟩ | ⟨b6, rfl, h6⟩
  · cases e
  rcases split_cons h6 with ⟨_, e⟩ | ⟨b7, rfl, h7⟩
  · cases e
  rcases split_cons h7 with ⟨_, e⟩ | ⟨b8, rfl, h8⟩
  · cases e
  cases b8 <;> cases h8

/-- The hypotheses of `C84_every_channel_partial` hold of this history. -/
example : ∃ c, ((PubSys.init []).run exGood).coll.signed = some c ∧ SingleChain (recordsOf "compat".toList c) ∧ SingleChain (recordsOf "default".toList c) := by
  have h := C84_every_channel_partial exGood (fun e he => exBad_pubs.1 e (List.mem_append.2 (Or.inl he))) exGood_well (((PubSys.init []).run exGood).coll.signed.getD []) (by decide +kernel)
  exact ⟨_, by decide +kernel, (h "compat".toList).resolve_left (by decide +kernel), (h "default".toList).resolve_left (by decide +kernel)⟩

/-- The hypotheses of `C84_signed_chain` hold of this history. -/
example : ∃ c, ((PubSys.init []).run exBad).coll.signed = some c ∧ ∃ slug, SingleChain (recordsOf slug c) := by
  refine ⟨((PubSys.init []).run exBad).coll.signed.getD [], by decide +kernel, ?_⟩
  obtain ⟨_, s, _, _, _, _, _, h⟩ := C84_signed_chain exBad exBad_pubs.1 exBad_pubs.2 (((PubSys.init []).run exBad).coll.signed.getD []) (by decide +kernel)
  exact ⟨s.slug, h⟩

/-- **C84 fails for other channels.** Review is asked for after every channel, for the whole collection: a channel whose publication died after it was cleared is signed with the next channel that works. Clients of the `compat` channel had a filter,
and after the signature they have none. -/
theorem C84_other_channel_fails :
    (∃ c, ((PubSys.init []).run exGood).coll.signed = some c ∧ recordsOf "compat".toList c ≠ []) ∧ ∃ c, ((PubSys.init []).run exBad).coll.signed = some c ∧ recordsOf "compat".toList c = [] ∧ recordsOf "default".toList c ≠ [] :=
  ⟨⟨((PubSys.init []).run exGood).coll.signed.getD [], by decide +kernel, by decide +kernel⟩, ((PubSys.init []).run exBad).coll.signed.getD [], by decide +kernel, by decide +kernel, by decide +kernel⟩

/-- One run of publisher and sign-off job. -/
def exRound (s : PubStep) : List (PubSysEvent (List KRec)) := [exEvent s, .pubLook, .pubAsk, .stop, .signLook, .signPatch]

def repeatEvs (l : List (PubSysEvent (List KRec))) : Nat → List (PubSysEvent (List KRec))
  | 0 => []
  | n + 1 => l ++ repeatEvs l n

theorem run_append {α : Type} [DecidableEq α] (s : PubSys α) (a b : List (PubSysEvent α)) : s.run (a ++ b) = (s.run a).run b := by
  unfold PubSys.run
  rw [List.foldl_append]

deriving instance DecidableEq for PubSys

/-- **C84 fails the other way.** The publisher dies between the last upload and the request for review. All further runs find nothing to do and do not ask either: until the next filter is made the published records are not signed. -/
theorem C84_not_submitted_fails (n : Nat) :
    let s := (PubSys.init []).run ([exEvent (exStep exPub [exR1]), .stop] ++ repeatEvs (exRound (exStep exPub [exR1])) n)
    s.coll.signed = none ∧ recordsOf "default".toList s.coll.content ≠ [] := by
  dsimp only
  have h0 : ((PubSys.init []).run [exEvent (exStep exPub [exR1]), .stop, .signLook, .signPatch]).run (exRound (exStep exPub [exR1])) = (PubSys.init []).run [exEvent (exStep exPub [exR1]), .stop, .signLook, .signPatch] := by
    decide +kernel
  have h1 : ((PubSys.init []).run [exEvent (exStep exPub [exR1]), .stop]).run (exRound (exStep exPub [exR1])) = (PubSys.init []).run [exEvent (exStep exPub [exR1]), .stop, .signLook, .signPatch] := by
    decide +kernel
  have key : ∀ n, ((PubSys.init []).run [exEvent (exStep exPub [exR1]), .stop, .signLook, .signPatch]).run (repeatEvs (exRound (exStep exPub [exR1])) n) = (PubSys.init []).run [exEvent (exStep exPub [exR1]), .stop, .signLook, .signPatch] := by
    intro n
    induction n with
    | zero => rfl
    | succ n ih => unfold repeatEvs; rw [run_append, h0]; exact ih
  rw [run_append]
  cases n with
  | zero => decide +kernel
  | succ n => unfold repeatEvs; rw [run_append, h1, key]; decide +kernel

/-- **C84.** Removing the records of channels that are not in use never leads to a review request of its own, whatever is in the collection. -/
theorem C84_removal_not_submitted (env : PubEnv) (slug : Text) (noop t : Bool) (s : PubSys (List KRec)) : ((s.step (.publish (clearRun env slug noop) t)).run [.pubLook, .pubAsk]).coll = (s.step (.publish (clearRun env slug noop) t)).coll := by
  have h : (s.step (.publish (clearRun env slug noop) t)).due = false := (clearRun_sublist env slug noop s.coll.content).2
  have hp : (s.step (.publish (clearRun env slug noop) t)).pubSeen = none := rfl
  generalize s.step (.publish (clearRun env slug noop) t) = s' at h hp
  unfold PubSys.run
  simp only [List.foldl_cons, List.foldl_nil]
  have e1 : s'.step .pubLook = s' := by unfold PubSys.step; dsimp only; rw [h]; rfl
  rw [e1]
  unfold PubSys.step
  dsimp only
  rw [hp]

example : ((((PubSys.init []).run exGood).step (.publish (clearRun exPub "compat".toList false) false)).coll.content).map KRec.attachment = [some "20240101-9-default.filter".toList] ∧
    (((PubSys.init []).run exGood).step (.publish (clearRun exPub "compat".toList false) false)).coll.status = .workInProgress := by decide +kernel

/-! ### C85 -/

/-- The three instances. -/
def IsInstance (bucket : Text) : Prop := bucket = "crlite-filters-prod".toList ∨ bucket = "crlite-filters-stage".toList ∨ bucket = "crlite-filters-dev".toList

theorem knownInstance_iff (bucket : Text) : knownInstance bucket = true ↔ IsInstance bucket := by
  unfold knownInstance IsInstance
  rw [List.contains_iff_mem]
  constructor
  · intro h
    rcases List.mem_cons.1 h with h | h
    · exact Or.inl h
    · rcases List.mem_cons.1 h with h | h
      · exact Or.inr (Or.inl h)
      · exact Or.inr (Or.inr (List.mem_singleton.1 h))
  · rintro (h | h | h) <;> rw [h]
    · exact List.mem_cons_self
    · exact List.mem_cons_of_mem _ List.mem_cons_self
    · exact List.mem_cons_of_mem _ (List.mem_cons_of_mem _ List.mem_cons_self)

/-- **C85.** Nothing is signed for an unknown instance; the intermediates are signed for every known one, before anything is said about filters. -/
theorem C85_instances (bucket : Text) (size : Option Nat) (maxSize : Nat) :
    (¬ IsInstance bucket → signoffTargets bucket size maxSize = []) ∧ (IsInstance bucket → (signoffTargets bucket size maxSize).head? = some .intermediates) := by
  rw [← knownInstance_iff]
  unfold signoffTargets
  constructor
  · intro h; rw [if_neg h]
  · intro h; rw [if_pos h]; split <;> rfl

/-- **C85 (partial).** Full statement: the filters are signed only if the filter file exists and is not larger than the limit. If the file can be read, that is so. -/
theorem C85_size_limit_partial (bucket : Text) (n maxSize : Nat) : .certRevocations ∈ signoffTargets bucket (some n) maxSize ↔ IsInstance bucket ∧ n ≤ maxSize := by
  rw [← knownInstance_iff]
  unfold signoffTargets
  by_cases h : knownInstance bucket = true
  · rw [if_pos h]
    by_cases h2 : n > maxSize
    · rw [if_pos (show (some n).getD 0 > maxSize from h2)]
      constructor
      · intro hm; exact absurd (List.mem_singleton.1 hm) (by decide)
      · intro hm; omega
    · rw [if_neg (show ¬ (some n).getD 0 > maxSize from h2)]
      exact ⟨fun _ => ⟨h, by omega⟩, fun _ => by simp⟩
  · rw [if_neg h]
    exact ⟨fun hm => (by cases hm), fun hm => absurd hm.1 h⟩

/-- **C85 fails.** If the file is not there, whatever the limit, and however large the published filter is, the filters are signed. No program in the repository writes `crlite_db/crlite.filter` in the processing directory. -/
theorem C85_missing_fails (bucket : Text) (h : IsInstance bucket) (maxSize : Nat) : .certRevocations ∈ signoffTargets bucket none maxSize := by
  unfold signoffTargets
  rw [if_pos ((knownInstance_iff bucket).2 h), if_neg (show ¬ (none : Option Nat).getD 0 > maxSize from Nat.not_lt_zero _)]
  simp

example : signoffTargets "crlite-filters-prod".toList (some 10485761) 10485760 = [.intermediates] ∧ signoffTargets "crlite-filters-prod".toList (some 10485760) 10485760 = [.intermediates, .certRevocations] ∧
    signoffTargets "crlite-filters".toList (some 1) 10485760 = [] := by decide +kernel

/-! ### each theorem applied -/

example := C84_signed_is_outcome [] exGood (fun e he => exBad_pubs.1 e (List.mem_append.2 (Or.inl he))) (((PubSys.init []).run exGood).coll.signed.getD []) (by decide +kernel)

end Verif.Props
