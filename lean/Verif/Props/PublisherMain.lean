import Verif.Lemmas.PublisherMain
/-!
Property C102: one execution of the publisher.
-/
namespace Verif.Props
open Verif.Spec

/-! ### the order of the calls -/

def filterCalls (chs : List Channel) : List PubCall := (chs.filter (fun c => c.enabled)).map PubCall.channel ++ (chs.filter (fun c => !c.enabled)).map PubCall.clear

theorem mainStages_eq (chs : List Channel) : mainStages chs = .logs :: (filterCalls chs ++ [.inters]) := by
  unfold mainStages filterCalls
  rw [List.append_assoc]

theorem filterCalls_slug (chs : List Channel) (g : PubCall) (hg : g ∈ filterCalls chs) : (callSlug g).isSome = true := by
  rcases List.mem_append.1 hg with h | h
  · obtain ⟨c, _, rfl⟩ := List.mem_map.1 h; rfl
  · obtain ⟨c, _, rfl⟩ := List.mem_map.1 h; rfl

theorem mem_filterCalls_channel (chs : List Channel) (ch : Channel) : PubCall.channel ch ∈ filterCalls chs ↔ ch ∈ chs ∧ ch.enabled = true := by
  unfold filterCalls
  rw [List.mem_append]
  constructor
  · rintro (h | h)
    · obtain ⟨c, hc, e⟩ := List.mem_map.1 h
      cases e
      exact List.mem_filter.1 hc
    · obtain ⟨c, _, e⟩ := List.mem_map.1 h
      cases e
  · intro h
    exact Or.inl (List.mem_map.2 ⟨ch, List.mem_filter.2 h, rfl⟩)

theorem mem_filterCalls_clear (chs : List Channel) (ch : Channel) : PubCall.clear ch ∈ filterCalls chs ↔ ch ∈ chs ∧ ch.enabled = false := by
  unfold filterCalls
  rw [List.mem_append]
  constructor
  · rintro (h | h)
    · obtain ⟨c, _, e⟩ := List.mem_map.1 h
      cases e
    · obtain ⟨c, hc, e⟩ := List.mem_map.1 h
      cases e
      obtain ⟨h1, h2⟩ := List.mem_filter.1 hc
      exact ⟨h1, by simpa using h2⟩
  · rintro ⟨h1, h2⟩
    exact Or.inr (List.mem_map.2 ⟨ch, List.mem_filter.2 ⟨h1, by rw [h2]; rfl⟩, rfl⟩)

theorem filterCalls_nodup (chs : List Channel) (h : (chs.map Channel.slug).Nodup) : ((filterCalls chs).map callSlug).Nodup := by
  have hm : (filterCalls chs).map callSlug = ((chs.filter (fun c => c.enabled) ++ chs.filter (fun c => !c.enabled)).map Channel.slug).map some := by
    unfold filterCalls
    rw [List.map_append, List.map_append, List.map_append, List.map_map, List.map_map, List.map_map, List.map_map]
    rfl
  rw [hm]
  have hp := (List.filter_append_perm (fun c : Channel => c.enabled) chs).map Channel.slug
  have hn := hp.nodup_iff.2 h
  exact List.Pairwise.map some (fun a b hab e => hab (by cases e; rfl)) hn

theorem goOn_none (e : PubWorld) (noop : Bool) (l : List PubCall) (s : PubServer) : goOn e noop l (none, s) = runStages e noop l s := rfl

/-- The call that failed is one of the calls. -/
theorem failed_mem {e : PubWorld} {noop : Bool} {k : PubCall} {l : List PubCall} {s s2 : PubServer} (h : runStages e noop l s = (some k, s2)) : k ∈ l := by
  induction l generalizing s with
  | nil => cases h
  | cons g rest ih =>
    rw [runStages_cons] at h
    by_cases hg : (stageRun e noop s g).1 = true
    · rw [if_pos hg] at h; exact List.mem_cons_of_mem _ (ih h)
    · rw [if_neg hg] at h; cases h; exact List.mem_cons_self

/-- The whole execution. -/
theorem main_eq (e : PubWorld) (chs : List Channel) (noop : Bool) (s : PubServer) :
    publisherMain e chs noop s = if (logsStage e noop s.logs).1 then goOn e noop [.inters] (runStages e noop (filterCalls chs) { s with logs := (logsStage e noop s.logs).2 })
      else (some .logs, { s with logs := (logsStage e noop s.logs).2 }) := by
  unfold publisherMain
  rw [mainStages_eq, runStages_cons]
  show (if (logsStage e noop s.logs).1 then _ else _) = _
  rw [runStages_append]
  rfl

theorem run_filters_main (e : PubWorld) (chs : List Channel) (hw : SoundWorld e chs) (s : PubServer) (hs : FiltersSound s.filters.content) :
    FiltersSound (runStages e false (filterCalls chs) s).2.filters.content ∧ (runStages e false (filterCalls chs) s).2.logs = s.logs ∧ (runStages e false (filterCalls chs) s).2.inters = s.inters ∧
      (∀ other, (∀ g ∈ filterCalls chs, callSlug g ≠ some other) → recordsOf other (runStages e false (filterCalls chs) s).2.filters.content = recordsOf other s.filters.content) ∧
      ((runStages e false (filterCalls chs) s).1 = none → ∀ g ∈ filterCalls chs, CallDone e s.filters.content (runStages e false (filterCalls chs) s).2.filters.content g) :=
  run_filters e hw.fresh (filterCalls chs) s (filterCalls_nodup chs hw.slugs) (filterCalls_slug chs) (fun ch hch => by
    obtain ⟨h1, h2⟩ := (mem_filterCalls_channel chs ch).1 hch
    exact ⟨hw.dashless ch h1, hw.bucket ch h1 h2⟩) hs

/-- An execution without exception: all parts succeeded. -/
theorem main_done {e : PubWorld} {chs : List Channel} {noop : Bool} {s s' : PubServer} (h : publisherMain e chs noop s = (none, s')) :
    (logsStage e noop s.logs).1 = true ∧ ∃ s2, runStages e noop (filterCalls chs) { s with logs := (logsStage e noop s.logs).2 } = (none, s2) ∧ (intersStage e noop s2.inters).1 = true ∧
      s' = { s2 with inters := (intersStage e noop s2.inters).2 } := by
  rw [main_eq] at h
  by_cases hl : (logsStage e noop s.logs).1 = true
  · rw [if_pos hl] at h
    refine ⟨hl, ?_⟩
    cases hr : runStages e noop (filterCalls chs) { s with logs := (logsStage e noop s.logs).2 } with
    | mk o s2 =>
      rw [hr] at h
      cases o with
      | some g => cases h
      | none =>
        refine ⟨s2, rfl, ?_⟩
        rw [goOn_none, runStages_cons] at h
        change (if (intersStage e noop s2.inters).1 then _ else _) = _ at h
        by_cases hi : (intersStage e noop s2.inters).1 = true
        · rw [if_pos hi] at h
          refine ⟨hi, ?_⟩
          have := congrArg Prod.snd h
          exact this.symm
        · rw [if_neg hi] at h
          cases h
  · rw [if_neg hl] at h
    cases h

theorem logsStage_done {e : PubWorld} {c : Coll (List CtRec)} (h : (logsStage e false c).1 = true) :
    ∃ ops, e.upstream = some ops ∧ (publishLogs e.ct ops false c.content).1 = true ∧ (logsStage e false c).2.content = (publishLogs e.ct ops false c.content).2 ∧ (logsStage e false c).2.status ≠ .workInProgress := by
  unfold logsStage at h ⊢
  cases hu : e.upstream with
  | none => rw [hu] at h; cases h
  | some ops =>
    rw [hu] at h
    dsimp only at h ⊢
    by_cases hr : e.reads .logs = true
    · rw [if_pos hr] at h ⊢
      cases hp : publishLogs e.ct ops false c.content with
      | mk b st =>
        rw [hp] at h
        cases b with
        | false => cases h
        | true =>
          simp only [Bool.false_eq_true, if_false] at h ⊢
          refine ⟨ops, rfl, by rw [hp], ?_, requestReview_status _ _ h⟩
          rw [requestReview_content, put_content, hp]
    · rw [if_neg hr] at h; cases h

theorem intersStage_done {e : PubWorld} {c : Coll (List InterRec)} (h : (intersStage e false c).1 = true) :
    (e.enrolled = .noRuns ∧ (intersStage e false c).2 = c) ∨
    ∃ l, e.enrolled = .entries l ∧ publishInters e.inter l false c.content = (true, (intersStage e false c).2.content) ∧ (intersStage e false c).2.status ≠ .workInProgress := by
  unfold intersStage at h ⊢
  cases hu : e.enrolled with
  | noRuns => exact Or.inl ⟨rfl, rfl⟩
  | missing => rw [hu] at h; cases h
  | entries l =>
    right
    rw [hu] at h
    dsimp only at h ⊢
    by_cases hr : e.reads .inters = true
    · rw [if_pos hr] at h ⊢
      simp only [Bool.false_eq_true, if_false] at h ⊢
      cases hp : publishInters e.inter l false c.content with
      | mk b st =>
        rw [hp] at h
        cases b with
        | false => cases h
        | true =>
          dsimp only at h ⊢
          refine ⟨l, rfl, ?_, requestReview_status _ _ h⟩
          rw [requestReview_content, put_content, hp]
    · rw [if_neg hr] at h; cases h

/-! ### C102 -/

/-- **C102.** If the publisher ends without an exception, then every channel in use is a single chain with the newest run in it, no record of a channel that is not used is left, all other channels are as before, and the intermediates are
exactly those of the newest run. -/
theorem C102_finished (e : PubWorld) (chs : List Channel) (s s' : PubServer) (hw : SoundWorld e chs) (hs : FiltersSound s.filters.content) (h : publisherMain e chs false s = (none, s')) :
    (∀ ch ∈ chs, ch.enabled = true → ∀ newest, (e.db ch.slug).ids.getLast? = some newest → UpToDate ch.slug newest s'.filters.content) ∧
    (∀ ch ∈ chs, ch.enabled = false → recordsOf ch.slug s'.filters.content = []) ∧
    (∀ other, (∀ ch ∈ chs, ch.slug ≠ other) → recordsOf other s'.filters.content = recordsOf other s.filters.content) ∧
    FiltersSound s'.filters.content ∧
    (∀ l, e.enrolled = .entries l → SameInters l s'.inters.content) := by
  obtain ⟨_, s2, h2, h3, rfl⟩ := main_done h
  obtain ⟨f1, _, f3, f4, f5⟩ := run_filters_main e chs hw { s with logs := (logsStage e false s.logs).2 } hs
  rw [h2] at f1 f3 f4 f5
  have f5 := f5 rfl
  dsimp only at f1 f3 f4 f5 ⊢
  refine ⟨?_, ?_, ?_, f1, ?_⟩
  · intro ch hch hen newest hnew
    obtain ⟨st, st', d1, d2, d3, d4⟩ := f5 (.channel ch) ((mem_filterCalls_channel chs ch).2 ⟨hch, hen⟩)
    have hb := hw.bucket ch hch hen
    have hd := hw.dashless ch hch
    obtain ⟨a1, _, _⟩ := settled _ _ _ newest _ st st' hd (hw.fresh _) (d2.2 _) hb hnew d3
    obtain ⟨v1, v2⟩ := C67_accepted_after _ _ _ _ newest st st' hd (hw.fresh _) (d2.2 _) hnew (hb.complete newest (List.mem_of_getLast? hnew)).1 d3
    unfold UpToDate
    rw [← d4]
    exact ⟨((C66_accepts_iff _).1 v1).resolve_left v2, a1⟩
  · intro ch hch hen
    exact f5 (.clear ch) ((mem_filterCalls_clear chs ch).2 ⟨hch, hen⟩)
  · intro other ho
    refine f4 other ?_
    intro g hg e
    cases g with
    | logs => cases e
    | inters => cases e
    | channel ch => cases e; exact ho ch ((mem_filterCalls_channel chs ch).1 hg).1 rfl
    | clear ch => cases e; exact ho ch ((mem_filterCalls_clear chs ch).1 hg).1 rfl
  · intro l hl
    rcases intersStage_done h3 with ⟨h, _⟩ | ⟨l', hl', hp, _⟩
    · rw [hl] at h; cases h
    · rw [hl] at hl'
      cases hl'
      exact C70_review _ _ _ _ _ hp

/-- **C102, logs (partial).** Full statement: if the publisher ends without an exception, the collection of logs equals Google's list. This holds if no request was refused; see `C102_unnoticed_fails`. -/
theorem C102_finished_logs_partial (e : PubWorld) (chs : List Channel) (s s' : PubServer) (hw : SoundWorld e chs) (hs : FiltersSound s.filters.content) (hl : LogsWell e s.logs.content)
    (h : publisherMain e chs false s = (none, s')) : ∃ ops, e.upstream = some ops ∧ SameLogs ops s'.logs.content := by
  obtain ⟨h1, s2, h2, _, rfl⟩ := main_done h
  obtain ⟨_, f2, _, _, _⟩ := run_filters_main e chs hw { s with logs := (logsStage e false s.logs).2 } hs
  rw [h2] at f2
  dsimp only at f2 ⊢
  obtain ⟨ops, hu, hok, hc, _⟩ := logsStage_done h1
  refine ⟨ops, hu, ?_⟩
  rw [f2, hc]
  rcases publishLogs_cases e.ct ops false s.logs.content with hx | ⟨⟨p1, p2, p3⟩, _⟩
  · rw [hx] at hok; cases hok
  · obtain ⟨_, c2, c3⟩ := C71_converges e.ct ops s.logs.content hl.fresh hl.ids p1 p2 p3 hl.enrolled hl.create hl.delete hl.update
    exact ⟨c2, c3⟩

/-! ### what an exception leaves -/

/-- **C102.** An exception ends the execution: the collections that come later are exactly as before. If it comes while the filters of a channel are published, the channels that come later are as before too. -/
theorem C102_stops (e : PubWorld) (chs : List Channel) (s s' : PubServer) (k : PubCall) (hw : SoundWorld e chs) (hs : FiltersSound s.filters.content) (h : publisherMain e chs false s = (some k, s')) :
    (k = .logs → s'.filters = s.filters ∧ s'.inters = s.inters) ∧ (k ≠ .inters → s'.inters = s.inters) ∧ FiltersSound s'.filters.content ∧
    (∀ ch before after, k = .channel ch → chs.filter (fun c => c.enabled) = before ++ ch :: after → ∀ c, c ∈ after ∨ (c ∈ chs ∧ c.enabled = false) → recordsOf c.slug s'.filters.content = recordsOf c.slug s.filters.content) := by
  rw [main_eq] at h
  by_cases hl : (logsStage e false s.logs).1 = true
  · rw [if_pos hl] at h
    obtain ⟨f1, f2, f3, f4, f5⟩ := run_filters_main e chs hw { s with logs := (logsStage e false s.logs).2 } hs
    cases hr : runStages e false (filterCalls chs) { s with logs := (logsStage e false s.logs).2 } with
    | mk o s2 =>
      rw [hr] at h f1 f2 f3
      dsimp only at f1 f2 f3
      cases o with
      | none =>
        rw [goOn_none, runStages_cons] at h
        change (if (intersStage e false s2.inters).1 then _ else _) = _ at h
        by_cases hi : (intersStage e false s2.inters).1 = true
        · rw [if_pos hi] at h; cases h
        · rw [if_neg hi] at h
          cases h
          exact ⟨(fun e => by cases e), fun e => absurd rfl e, f1, (fun ch _ _ e => by cases e)⟩
      | some g =>
        change (some g, s2) = (some k, s') at h
        cases h
        have hkm : k ∈ filterCalls chs := failed_mem hr
        refine ⟨?_, fun _ => f3, f1, ?_⟩
        · rintro rfl
          have := filterCalls_slug chs _ hkm
          cases this
        · intro ch before after hk hsplit c hc
          subst hk
          -- the calls up to the one that failed
          have hcalls : filterCalls chs = (before.map PubCall.channel ++ [PubCall.channel ch]) ++ (after.map PubCall.channel ++ (chs.filter (fun c => !c.enabled)).map PubCall.clear) := by
            unfold filterCalls
            rw [hsplit]
            simp
          have hnod := filterCalls_nodup chs hw.slugs
          have hsl := filterCalls_slug chs
          have hsame : runStages e false (before.map PubCall.channel ++ [PubCall.channel ch]) { s with logs := (logsStage e false s.logs).2 } = (some (PubCall.channel ch), s') := by
            have hr' := hr
            rw [hcalls, runStages_append] at hr'
            cases hp : runStages e false (before.map PubCall.channel ++ [PubCall.channel ch]) { s with logs := (logsStage e false s.logs).2 } with
            | mk o s3 =>
              rw [hp] at hr'
              cases o with
              | some g => exact hr'
              | none =>
                exfalso
                rw [goOn_none] at hr'
                have hmem := failed_mem hr'
                rw [hcalls, List.map_append, List.nodup_append] at hnod
                exact hnod.2.2 (callSlug (.channel ch)) (List.mem_map.2 ⟨_, by simp, rfl⟩) (callSlug (.channel ch)) (List.mem_map.2 ⟨_, hmem, rfl⟩) rfl
          have hn1 : ((before.map PubCall.channel ++ [PubCall.channel ch]).map callSlug).Nodup := by
            rw [hcalls, List.map_append, List.nodup_append] at hnod
            exact hnod.1
          obtain ⟨_, _, _, u4, _⟩ := run_filters e hw.fresh (before.map PubCall.channel ++ [PubCall.channel ch]) { s with logs := (logsStage e false s.logs).2 } hn1
            (fun g hg => hsl g (by rw [hcalls]; exact List.mem_append.2 (Or.inl hg))) (fun c' hc' => by
              obtain ⟨h1, h2⟩ := (mem_filterCalls_channel chs c').1 (by rw [hcalls]; exact List.mem_append.2 (Or.inl hc'))
              exact ⟨hw.dashless c' h1, hw.bucket c' h1 h2⟩) hs
          rw [hsame] at u4
          refine u4 c.slug ?_
          intro g hg hgc
          rw [hcalls, List.map_append, List.nodup_append] at hnod
          have hcm : some c.slug ∈ (after.map PubCall.channel ++ (chs.filter (fun c => !c.enabled)).map PubCall.clear).map callSlug := by
            rcases hc with hc | ⟨hc1, hc2⟩
            · exact List.mem_map.2 ⟨.channel c, List.mem_append.2 (Or.inl (List.mem_map.2 ⟨c, hc, rfl⟩)), rfl⟩
            · exact List.mem_map.2 ⟨.clear c, List.mem_append.2 (Or.inr (List.mem_map.2 ⟨c, List.mem_filter.2 ⟨hc1, by rw [hc2]; rfl⟩, rfl⟩)), rfl⟩
          exact hnod.2.2 (callSlug g) (List.mem_map.2 ⟨g, hg, rfl⟩) (some c.slug) hcm hgc
  · rw [if_neg hl] at h
    cases h
    exact ⟨fun _ => ⟨rfl, rfl⟩, fun _ => rfl, hs, (fun ch _ _ e => by cases e)⟩

/-- **C102 fails as independence of the collections.** Filters and intermediates do not depend on the logs, but as the logs come first, one bad entry in Google's list stops them: if the list cannot be read, repeats an identifier, or has one that
does not belong to its key, an execution changes nothing at all, whatever the bucket holds. The list is not under the control of the project. -/
theorem C102_log_list_fails (e : PubWorld) (chs : List Channel) (noop : Bool) (s : PubServer)
    (h : ∀ ops, e.upstream = some ops → ¬((upstreamLogs ops).map UpLog.logID).Nodup ∨ ∃ u ∈ upstreamLogs ops, e.ct.logIdOf u.info.key ≠ u.logID) : publisherMain e chs noop s = (some .logs, s) := by
  have hl : logsStage e noop s.logs = (false, s.logs) := by
    unfold logsStage
    cases hu : e.upstream with
    | none => rfl
    | some ops =>
      dsimp only
      have hr := C71_refused e.ct ops noop s.logs.content (by
        rcases h ops hu with h | h
        · exact Or.inl h
        · exact Or.inr (Or.inr h))
      rw [hr]
      dsimp only
      rw [put_same]
      split <;> rfl
  rw [main_eq, hl]
  rfl

/-- **C102 fails as independence of the collections, again.** A record of a log that does not say whether the log is enrolled, such as one made by hand, stops every execution, also dry runs, before the filters and the intermediates. -/
theorem C102_unmarked_fails (e : PubWorld) (chs : List Channel) (noop : Bool) (s : PubServer) (ops : List LogOperator) (hu : e.upstream = some ops) (k : CtRec) (hk : k ∈ s.logs.content) (hn : k.enrolled = none)
    (hup : ∃ u ∈ upstreamLogs ops, u.logID = k.logID) :
    (publisherMain e chs noop s).1 = some .logs ∧ (publisherMain e chs noop s).2.filters = s.filters ∧ (publisherMain e chs noop s).2.inters = s.inters := by
  have hf : (publishLogs e.ct ops noop s.logs.content).1 = false := by
    cases h : (publishLogs e.ct ops noop s.logs.content).1 with
    | false => rfl
    | true => exact absurd hn (((C71_end_reached e.ct ops noop s.logs.content).1 h).2.2.2 k hk hup)
  have hl : (logsStage e noop s.logs).1 = false := by
    unfold logsStage
    rw [hu]
    dsimp only
    split
    · cases hp : publishLogs e.ct ops noop s.logs.content with
      | mk b st =>
        rw [hp] at hf
        dsimp only at hf
        subst hf
        rfl
    · rfl
  rw [main_eq, hl]
  exact ⟨rfl, rfl, rfl⟩

/-! ### dry runs -/

/-- **C102.** A dry run changes nothing. -/
theorem C102_noop (e : PubWorld) (chs : List Channel) (s : PubServer) : (publisherMain e chs true s).2 = s := by
  have hstage : ∀ (g : PubCall) (s : PubServer), (stageRun e true s g).2 = s := by
    intro g s
    cases g with
    | logs =>
      show ({ s with logs := (logsStage e true s.logs).2 } : PubServer) = s
      have : (logsStage e true s.logs).2 = s.logs := by
        unfold logsStage
        cases e.upstream with
        | none => rfl
        | some ops =>
          dsimp only
          split
          · have := C71_noop e.ct ops s.logs.content
            cases hp : publishLogs e.ct ops true s.logs.content with
            | mk b st =>
              rw [hp] at this
              dsimp only at this
              subst this
              cases b <;> simp [put_same]
          · rfl
      rw [this]
    | channel ch =>
      show ({ s with filters := (channelStage e true ch s.filters).2 } : PubServer) = s
      have : (channelStage e true ch s.filters).2 = s.filters := by
        unfold channelStage
        split
        · dsimp only
          have := C67_noop (e.pub ch.slug) (e.db ch.slug) ch.slug ch.maxAge s.filters.content
          have hasks : crliteAsks (e.pub ch.slug) (e.db ch.slug) ch.slug ch.maxAge true s.filters.content = false := by
            unfold crliteAsks
            split
            · rfl
            · simp
          cases hp : publishCrlite (e.pub ch.slug) (e.db ch.slug) ch.slug ch.maxAge true s.filters.content with
          | mk b st =>
            rw [hp] at this
            dsimp only at this
            subst this
            rw [hasks]
            cases b <;> simp [put_same]
        · rfl
      rw [this]
    | clear ch => rfl
    | inters =>
      show ({ s with inters := (intersStage e true s.inters).2 } : PubServer) = s
      have : (intersStage e true s.inters).2 = s.inters := by
        unfold intersStage
        cases e.enrolled with
        | noRuns => rfl
        | missing => rfl
        | entries l =>
          dsimp only
          split <;> rfl
      rw [this]
  unfold publisherMain
  generalize mainStages chs = l
  induction l generalizing s with
  | nil => rfl
  | cons g rest ih =>
    rw [runStages_cons, hstage g s]
    split
    · exact ih s
    · rfl

/-! ### a second execution -/

theorem logsStage_settled (e : PubWorld) (c : Coll (List CtRec)) (h : ∀ ops, e.upstream = some ops → SameLogs ops c.content) (hst : c.status ≠ .workInProgress) : (logsStage e false c).2 = c := by
  unfold logsStage
  cases hu : e.upstream with
  | none => rfl
  | some ops =>
    dsimp only
    have hs := logs_settled e.ct ops c.content (h ops hu)
    by_cases hr : e.reads .logs = true
    · rw [if_pos hr]
      cases hp : publishLogs e.ct ops false c.content with
      | mk b st =>
        rw [hp] at hs
        dsimp only at hs
        subst hs
        cases b with
        | false => exact put_same c
        | true =>
          simp only [Bool.false_eq_true, if_false]
          rw [put_same]
          exact requestReview_same _ _ hst
    · rw [if_neg hr]

theorem intersStage_settled (e : PubWorld) (c : Coll (List InterRec)) (hint : ∀ s, e.inter.interfere s = s) (h : ∀ l, e.enrolled = .entries l → SameInters l c.content ∧ c.status ≠ .workInProgress) : (intersStage e false c).2 = c := by
  unfold intersStage
  cases hu : e.enrolled with
  | noRuns => rfl
  | missing => rfl
  | entries l =>
    dsimp only
    obtain ⟨h1, hst⟩ := h l hu
    obtain ⟨hs, ht⟩ := inters_settled e.inter l c.content hint h1
    by_cases hr : e.reads .inters = true
    · rw [if_pos hr]
      simp only [Bool.false_eq_true, if_false]
      rw [ht, Bool.and_false]
      cases hp : publishInters e.inter l false c.content with
      | mk b st =>
        rw [hp] at hs
        dsimp only at hs
        subst hs
        cases b with
        | false => exact put_same c
        | true =>
          dsimp only
          rw [put_same]
          exact requestReview_same _ _ hst
    · rw [if_neg hr]

theorem crlite_idle {env : PubEnv} {db : RunDb} {slug : Text} {maxAge : Nat} {st : List KRec} (h : ∀ newest, db.ids.getLast? = some newest → determinePublish (sortRecs (recordsOf slug st)) db maxAge = some (.deltas [])) :
    publishCrlite env db slug maxAge false st = (true, st) ∧ crliteAsks env db slug maxAge false st = false := by
  unfold crliteAsks publishCrlite
  cases hn : db.ids.getLast? with
  | none => exact ⟨rfl, rfl⟩
  | some newest =>
    dsimp only
    have hd : determinePublish (sortRecs (st.filter (ofChannel slug))) db maxAge = some (.deltas []) := h newest hn
    rw [hd]
    refine ⟨?_, by simp⟩
    dsimp only
    split
    · rfl
    · rfl

theorem channelStage_settled (e : PubWorld) (ch : Channel) (c : Coll (List KRec))
    (h : ∀ newest, (e.db ch.slug).ids.getLast? = some newest → determinePublish (sortRecs (recordsOf ch.slug c.content)) (e.db ch.slug) ch.maxAge = some (.deltas [])) : (channelStage e false ch c).2 = c := by
  obtain ⟨h1, h2⟩ := crlite_idle (env := e.pub ch.slug) h
  unfold channelStage
  dsimp only
  rw [h1, h2]
  simp only [Bool.false_eq_true, if_false]
  rw [put_same]
  split <;> rfl

theorem clearStage_settled (e : PubWorld) (ch : Channel) (c : Coll (List KRec)) (h : recordsOf ch.slug c.content = []) : (clearStage e false ch c).2 = c := by
  unfold clearStage
  rw [clear_none _ _ _ _ _ h]
  dsimp only
  rw [clear_none _ _ _ _ _ h]
  simp only [Bool.false_eq_true, if_false]
  rw [put_same]
  split <;> rfl

/-- Calls that change nothing one by one change nothing together. -/
theorem runStages_settled (e : PubWorld) (calls : List PubCall) (s : PubServer) (h : ∀ g ∈ calls, (stageRun e false s g).2 = s) : (runStages e false calls s).2 = s := by
  induction calls with
  | nil => rfl
  | cons g rest ih =>
    rw [runStages_cons, h g (by simp)]
    split
    · exact ih (fun g hg => h g (by simp [hg]))
    · rfl

/-- **C102.** A second execution on the same data changes nothing, whatever fails in it. -/
theorem C102_repeat (e e' : PubWorld) (chs : List Channel) (s s' : PubServer) (hw : SoundWorld e chs) (hs : FiltersSound s.filters.content) (hl : LogsWell e s.logs.content)
    (hnm : ∀ ch ∈ chs, ch.enabled = true → NamesFollow (e.pub ch.slug).nameOf ∧ NamedAfter (e.pub ch.slug).nameOf (e.db ch.slug) ch.slug s.filters.content ∧ 0 < ch.maxAge)
    (h : publisherMain e chs false s = (none, s')) (hsame : SameInputs e e') : (publisherMain e' chs false s').2 = s' := by
  obtain ⟨_, _, _, _, g5⟩ := C102_finished e chs s s' hw hs h
  obtain ⟨ops, hops, hsl⟩ := C102_finished_logs_partial e chs s s' hw hs hl h
  obtain ⟨h1, s2, h2, h3, rfl⟩ := main_done h
  obtain ⟨f1, f2, f3, f4, f5⟩ := run_filters_main e chs hw { s with logs := (logsStage e false s.logs).2 } hs
  rw [h2] at f1 f2 f3 f4 f5
  have f5 := f5 rfl
  dsimp only at f1 f2 f3 f4 f5 hsl
  unfold publisherMain
  refine runStages_settled e' _ _ ?_
  intro g hg
  rw [mainStages_eq] at hg
  rcases List.mem_cons.1 hg with rfl | hg
  · show ({ ({ s2 with inters := (intersStage e false s2.inters).2 } : PubServer) with logs := (logsStage e' false s2.logs).2 } : PubServer) = _
    rw [logsStage_settled e' s2.logs]
    · intro ops' hu
      rw [hsame.upstream, hops] at hu
      cases hu
      exact hsl
    · rw [f2]
      obtain ⟨_, _, _, _, hst⟩ := logsStage_done h1
      exact hst
  rcases List.mem_append.1 hg with hg | hg
  · cases g with
    | logs => have := filterCalls_slug chs _ hg; cases this
    | inters => have := filterCalls_slug chs _ hg; cases this
    | channel ch =>
      obtain ⟨hch, hen⟩ := (mem_filterCalls_channel chs ch).1 hg
      show ({ ({ s2 with inters := (intersStage e false s2.inters).2 } : PubServer) with filters := (channelStage e' false ch s2.filters).2 } : PubServer) = _
      rw [channelStage_settled e' ch s2.filters]
      intro newest hnew
      rw [hsame.db] at hnew ⊢
      obtain ⟨st, st', d1, d2, d3, d4⟩ := f5 (.channel ch) hg
      obtain ⟨n1, n2, n3⟩ := hnm ch hch hen
      rw [← d4]
      exact (settled _ _ _ newest _ st st' (hw.dashless ch hch) (hw.fresh _) (d2.2 _) (hw.bucket ch hch hen) hnew d3).2.2 n1 (named_congr d1.symm n2) n3
    | clear ch =>
      show ({ ({ s2 with inters := (intersStage e false s2.inters).2 } : PubServer) with filters := (clearStage e' false ch s2.filters).2 } : PubServer) = _
      rw [clearStage_settled e' ch s2.filters (f5 (.clear ch) hg)]
  · rw [List.mem_singleton] at hg
    subst hg
    show ({ ({ s2 with inters := (intersStage e false s2.inters).2 } : PubServer) with inters := (intersStage e' false (intersStage e false s2.inters).2).2 } : PubServer) = _
    rw [intersStage_settled e' _ hsame.alone]
    intro l hl'
    rw [hsame.enrolled] at hl'
    refine ⟨g5 l hl', ?_⟩
    rcases intersStage_done h3 with ⟨hx, _⟩ | ⟨_, _, _, hst⟩
    · rw [hl'] at hx; cases hx
    · exact hst

/-! ### what is submitted -/

theorem channelStage_status {e : PubWorld} {ch : Channel} {c : Coll (List KRec)} (h : (channelStage e false ch c).1 = true) : (channelStage e false ch c).2 = c ∨ (channelStage e false ch c).2.status ≠ .workInProgress := by
  unfold channelStage at h ⊢
  by_cases hr : e.reads (.channel ch) = true
  · rw [if_pos hr] at h ⊢
    dsimp only at h ⊢
    cases hp : publishCrlite (e.pub ch.slug) (e.db ch.slug) ch.slug ch.maxAge false c.content with
    | mk b st =>
      rw [hp] at h
      cases b with
      | false => cases h
      | true =>
        dsimp only at h ⊢
        by_cases ha : crliteAsks (e.pub ch.slug) (e.db ch.slug) ch.slug ch.maxAge false c.content = true
        · rw [if_pos ha] at h ⊢
          exact Or.inr (requestReview_status _ _ h)
        · rw [if_neg ha]
          left
          rw [crliteAsks_false hp (by simpa using ha), put_same]
  · rw [if_neg hr] at h; cases h

theorem noop_asks (env : PubEnv) (db : RunDb) (slug : Text) (maxAge : Nat) (st : List KRec) : crliteAsks env db slug maxAge true st = false := by
  unfold crliteAsks
  split
  · rfl
  · simp

theorem runStages_noop (e : PubWorld) (s : PubServer) (l : List PubCall) (h : ∀ g ∈ l, stageRun e true s g = (true, s)) : runStages e true l s = (none, s) := by
  induction l with
  | nil => rfl
  | cons g rest ih =>
    unfold runStages
    rw [h g List.mem_cons_self]
    exact ih (fun x hx => h x (List.mem_cons_of_mem _ hx))

/-- **C102, dry runs.** A dry run comes to its end if everything can be read: Google's list and the records of the logs are in order, the records of every collection can be fetched, what to publish can be determined for every channel in use, and a run
has its `enrolled.json`. -/
theorem C102_noop_ends (e : PubWorld) (chs : List Channel) (s : PubServer) (ops : List LogOperator) (hu : e.upstream = some ops) (hlogs : (publishLogs e.ct ops true s.logs.content).1 = true) (hr : ∀ g, e.reads g = true)
    (hch : ∀ ch ∈ chs, ch.enabled = true → (publishCrlite (e.pub ch.slug) (e.db ch.slug) ch.slug ch.maxAge true s.filters.content).1 = true)
    (hen : e.enrolled ≠ .missing) (hin : (loadRemote e.inter.fetchOk1 s.inters.content [] []).isSome = true) : publisherMain e chs true s = (none, s) := by
  have hsame : ∀ g, (stageRun e true s g).2 = s := by
    intro g
    cases g with
    | logs =>
      show ({ s with logs := (logsStage e true s.logs).2 } : PubServer) = s
      have : (logsStage e true s.logs).2 = s.logs := by
        unfold logsStage
        rw [hu]
        dsimp only
        rw [if_pos (hr _)]
        have := C71_noop e.ct ops s.logs.content
        cases hp : publishLogs e.ct ops true s.logs.content with
        | mk b st =>
          rw [hp] at this
          dsimp only at this
          subst this
          cases b <;> simp [put_same]
      rw [this]
    | channel ch =>
      show ({ s with filters := (channelStage e true ch s.filters).2 } : PubServer) = s
      have : (channelStage e true ch s.filters).2 = s.filters := by
        unfold channelStage
        rw [if_pos (hr _)]
        dsimp only
        have := C67_noop (e.pub ch.slug) (e.db ch.slug) ch.slug ch.maxAge s.filters.content
        have hasks := noop_asks (e.pub ch.slug) (e.db ch.slug) ch.slug ch.maxAge s.filters.content
        cases hp : publishCrlite (e.pub ch.slug) (e.db ch.slug) ch.slug ch.maxAge true s.filters.content with
        | mk b st =>
          rw [hp] at this
          dsimp only at this
          subst this
          cases b <;> simp [put_same, hasks]
      rw [this]
    | clear ch => rfl
    | inters =>
      show ({ s with inters := (intersStage e true s.inters).2 } : PubServer) = s
      have : (intersStage e true s.inters).2 = s.inters := by
        unfold intersStage
        cases e.enrolled with
        | noRuns => rfl
        | missing => rfl
        | entries l =>
          dsimp only
          rw [if_pos (hr _), if_pos rfl]
      rw [this]
  have hok : ∀ g ∈ mainStages chs, (stageRun e true s g).1 = true := by
    intro g hg
    cases g with
    | logs =>
      show (logsStage e true s.logs).1 = true
      unfold logsStage
      rw [hu]
      dsimp only
      rw [if_pos (hr _)]
      cases hp : publishLogs e.ct ops true s.logs.content with
      | mk b st =>
        rw [hp] at hlogs
        dsimp only at hlogs
        subst hlogs
        rfl
    | channel ch =>
      show (channelStage e true ch s.filters).1 = true
      have hmem : ch ∈ chs ∧ ch.enabled = true := by
        unfold mainStages at hg
        simp only [List.mem_cons, List.mem_append, List.mem_map, List.mem_filter, List.not_mem_nil, reduceCtorEq, false_or, PubCall.channel.injEq, exists_eq_right, and_false, exists_false, or_false] at hg
        exact hg
      have hc := hch ch hmem.1 hmem.2
      unfold channelStage
      rw [if_pos (hr _)]
      dsimp only
      have hasks := noop_asks (e.pub ch.slug) (e.db ch.slug) ch.slug ch.maxAge s.filters.content
      cases hp : publishCrlite (e.pub ch.slug) (e.db ch.slug) ch.slug ch.maxAge true s.filters.content with
      | mk b st =>
        rw [hp] at hc
        dsimp only at hc
        subst hc
        dsimp only
        rw [hasks]
        rfl
    | clear ch => rfl
    | inters =>
      show (intersStage e true s.inters).1 = true
      unfold intersStage
      cases he : e.enrolled with
      | noRuns => rfl
      | missing => exact absurd he hen
      | entries l =>
        dsimp only
        rw [if_pos (hr _), if_pos rfl]
        exact hin
  exact runStages_noop e s (mainStages chs) (fun g hg => Prod.ext (hok g hg) (hsame g))

/-- **C102, interrupted.** If there is a record to delete or an issuer to add, and the call ends with an exception after some record was written or deleted, the collection is work in progress. -/
theorem C102_interrupted (e : PubWorld) (c : Coll (List InterRec)) (l : List (Option Inter)) (good bad : List InterRec) (he : e.enrolled = .entries l) (hr : e.reads .inters = true) (hleft : e.leftovers .inters = true)
    (hload : loadRemote e.inter.fetchOk1 c.content [] [] = some (good, bad))
    (htodo : bad ≠ [] ∨ (∃ i ∈ loadLocal l [], ∀ r ∈ good, r.entry ≠ some i) ∨ ∃ r ∈ good, ∀ i ∈ loadLocal l [], r.entry ≠ some i) (hfail : (publishInters e.inter l false c.content).1 = false) :
    (intersStage e false c).1 = false ∧ (intersStage e false c).2.status = .workInProgress := by
  have ht : interTodo e.inter l c.content = true := by
    unfold interTodo
    rw [hload]
    dsimp only
    cases hx : (bad.isEmpty && (loadLocal l []).all (fun i => holdsInter good i) && good.all (fun r => (loadLocal l []).any (fun i => decide (r.entry = some i)))) with
    | false => rfl
    | true =>
      exfalso
      rw [Bool.and_eq_true, Bool.and_eq_true, List.isEmpty_iff, List.all_eq_true, List.all_eq_true] at hx
      obtain ⟨⟨h1, h2⟩, h3⟩ := hx
      rcases htodo with h | ⟨i, hi, h⟩ | ⟨r, hr, h⟩
      · exact h h1
      · have := h2 i hi
        unfold holdsInter at this
        rw [List.any_eq_true] at this
        obtain ⟨r, hr, h4⟩ := this
        exact h r hr (of_decide_eq_true h4)
      · have := h3 r hr
        rw [List.any_eq_true] at this
        obtain ⟨i, hi, h4⟩ := this
        exact h i hi (of_decide_eq_true h4)
  unfold intersStage
  rw [he]
  dsimp only
  rw [if_pos hr, if_neg (by decide)]
  cases hp : publishInters e.inter l false c.content with
  | mk b st =>
    rw [hp] at hfail
    dsimp only at hfail
    subst hfail
    dsimp only
    rw [ht, hleft]
    exact ⟨rfl, rfl⟩

/-- **C102.** After an execution without exception the logs and the intermediates are submitted for review, and so are the filters, if none had to be removed and nothing was left unsubmitted before. -/
theorem C102_submitted_partial (e : PubWorld) (chs : List Channel) (s s' : PubServer) (hw : SoundWorld e chs) (hs : FiltersSound s.filters.content) (h : publisherMain e chs false s = (none, s')) :
    s'.logs.status ≠ .workInProgress ∧ (e.enrolled ≠ .noRuns → s'.inters.status ≠ .workInProgress) ∧
    (s.filters.status ≠ .workInProgress → (∀ ch ∈ chs, ch.enabled = false → recordsOf ch.slug s.filters.content = []) → s'.filters.status ≠ .workInProgress) := by
  obtain ⟨h1, s2, h2, h3, rfl⟩ := main_done h
  obtain ⟨f1, f2, f3, f4, f5⟩ := run_filters_main e chs hw { s with logs := (logsStage e false s.logs).2 } hs
  rw [h2] at f2
  dsimp only at f2
  refine ⟨?_, ?_, ?_⟩
  · dsimp only
    rw [f2]
    obtain ⟨_, _, _, _, hst⟩ := logsStage_done h1
    exact hst
  · intro hne
    rcases intersStage_done h3 with ⟨hx, _⟩ | ⟨_, _, _, hst⟩
    · exact absurd hx hne
    · exact hst
  · intro hst hcl
    have key : ∀ (calls : List PubCall) (s s2 : PubServer), (calls.map callSlug).Nodup → (∀ g ∈ calls, (callSlug g).isSome = true) → (∀ ch, PubCall.channel ch ∈ calls → (∀ c ∈ ch.slug, c ≠ '-') ∧ SoundBucket (e.db ch.slug)) →
        FiltersSound s.filters.content → s.filters.status ≠ .workInProgress → (∀ ch, PubCall.clear ch ∈ calls → recordsOf ch.slug s.filters.content = []) → runStages e false calls s = (none, s2) → s2.filters.status ≠ .workInProgress := by
      intro calls
      induction calls with
      | nil => intro s s2 _ _ _ _ hst _ h; cases h; exact hst
      | cons g rest ih =>
        intro s s2 hn hg hb hs hst hc h
        rw [List.map_cons, List.nodup_cons] at hn
        obtain ⟨slug, hslug⟩ := Option.isSome_iff_exists.1 (hg g (by simp))
        obtain ⟨t1, _, _, t4⟩ := stage_filters e g slug hslug hw.fresh (fun ch h => hb ch (by rw [h]; simp)) s hs
        rw [runStages_cons] at h
        by_cases hok : (stageRun e false s g).1 = true
        · rw [if_pos hok] at h
          refine ih _ s2 hn.2 (fun g hg' => hg g (by simp [hg'])) (fun ch hch => hb ch (by simp [hch])) t1 ?_ ?_ h
          · cases g with
            | logs => cases hslug
            | inters => cases hslug
            | channel ch =>
              rcases channelStage_status (e := e) (ch := ch) (c := s.filters) hok with hx | hx
              · show (channelStage e false ch s.filters).2.status ≠ _
                rw [hx]; exact hst
              · exact hx
            | clear ch =>
              show (clearStage e false ch s.filters).2.status ≠ _
              rw [clearStage_settled e ch s.filters (hc ch (by simp))]
              exact hst
          · intro ch hch
            rw [t4 ch.slug ?_]
            · exact hc ch (by simp [hch])
            · intro he
              refine hn.1 (List.mem_map.2 ⟨.clear ch, hch, ?_⟩)
              rw [hslug, ← he]; rfl
        · rw [if_neg hok] at h; cases h
    refine key (filterCalls chs) { s with logs := (logsStage e false s.logs).2 } s2 (filterCalls_nodup chs hw.slugs) (filterCalls_slug chs) (fun ch hch => ?_) hs hst (fun ch hch => ?_) h2
    · obtain ⟨a, b⟩ := (mem_filterCalls_channel chs ch).1 hch
      exact ⟨hw.dashless ch a, hw.bucket ch a b⟩
    · obtain ⟨a, b⟩ := (mem_filterCalls_clear chs ch).1 hch
      exact hcl ch a b

theorem clears_status (e : PubWorld) (l : List Channel) : ∀ s s2 : PubServer, (s.filters.status = .workInProgress ∨ ∃ ch ∈ l, recordsOf ch.slug s.filters.content ≠ []) → runStages e false (l.map PubCall.clear) s = (none, s2) →
    s2.filters.status = .workInProgress := by
  induction l with
  | nil =>
    intro s s2 h hr
    cases hr
    rcases h with h | ⟨_, hm, _⟩
    · exact h
    · cases hm
  | cons ch rest ih =>
    intro s s2 h hr
    rw [List.map_cons, runStages_cons] at hr
    by_cases hok : (stageRun e false s (.clear ch)).1 = true
    · rw [if_pos hok] at hr
      refine ih _ s2 ?_ hr
      obtain ⟨c1, c2⟩ := clearStage_ok e ch s.filters hok
      show (clearStage e false ch s.filters).2.status = _ ∨ ∃ c ∈ rest, recordsOf c.slug (clearStage e false ch s.filters).2.content ≠ []
      by_cases hd : (clearRun (e.pub ch.slug) ch.slug false s.filters.content).1 = s.filters.content
      · rw [hd, put_same] at c1
        rw [c1] at c2 ⊢
        rcases h with h | ⟨c, hm, hx⟩
        · exact Or.inl h
        · rcases List.mem_cons.1 hm with rfl | hm
          · exact absurd c2 hx
          · exact Or.inr ⟨c, hm, hx⟩
      · left
        rw [c1]
        unfold Coll.put
        rw [if_pos (by rw [decide_eq_true hd]; rfl)]
        rfl
    · rw [if_neg hok] at hr; cases hr

/-- **C102 fails** as to the submission of the filters: review is asked for after every channel, and only then are the records of channels that are not used removed. If there was any, the collection is work-in-progress at the end of an execution
without exception: also the filters just published, submitted shortly before, are not signed. -/
theorem C102_clearing_fails (e : PubWorld) (chs : List Channel) (s s' : PubServer) (hw : SoundWorld e chs) (hs : FiltersSound s.filters.content) (h : publisherMain e chs false s = (none, s')) (ch : Channel) (hch : ch ∈ chs)
    (hen : ch.enabled = false) (hrec : recordsOf ch.slug s.filters.content ≠ []) : s'.filters.status = .workInProgress ∧ s'.filters.sign s'.filters.look = s'.filters := by
  have hst : s'.filters.status = .workInProgress := by
    obtain ⟨_, s2, h2, _, rfl⟩ := main_done h
    show s2.filters.status = _
    have hn := filterCalls_nodup chs hw.slugs
    unfold filterCalls at hn h2
    rw [runStages_append] at h2
    rw [List.map_append, List.nodup_append] at hn
    obtain ⟨_, _, _, u4, _⟩ := run_filters e hw.fresh ((chs.filter (fun c => c.enabled)).map PubCall.channel) { s with logs := (logsStage e false s.logs).2 } hn.1
      (fun g hg => by obtain ⟨c, _, rfl⟩ := List.mem_map.1 hg; rfl) (fun c hc => by
        obtain ⟨c', hc', he⟩ := List.mem_map.1 hc
        cases he
        obtain ⟨a, b⟩ := List.mem_filter.1 hc'
        exact ⟨hw.dashless c a, hw.bucket c a b⟩) hs
    cases hr : runStages e false ((chs.filter (fun c => c.enabled)).map PubCall.channel) { s with logs := (logsStage e false s.logs).2 } with
    | mk o s1 =>
      rw [hr] at h2 u4
      cases o with
      | some g => cases h2
      | none =>
        rw [goOn_none] at h2
        have hmem : ch ∈ chs.filter (fun c => !c.enabled) := List.mem_filter.2 ⟨hch, by rw [hen]; rfl⟩
        refine clears_status e _ s1 s2 (Or.inr ⟨ch, hmem, ?_⟩) h2
        have := u4 ch.slug (fun g hg he => by
          refine hn.2.2 (callSlug g) (List.mem_map.2 ⟨g, hg, rfl⟩) (callSlug (.clear ch)) (List.mem_map.2 ⟨_, List.mem_map.2 ⟨ch, hmem, rfl⟩, rfl⟩) ?_
          rw [he]; rfl)
        dsimp only at this
        rw [this]
        exact hrec
  refine ⟨hst, ?_⟩
  unfold Coll.sign Coll.look
  dsimp only
  rw [hst]
  rfl

/-- **C102 fails**, continued: neither further executions on the same data nor the sign-off job get out of this. -/
theorem C102_stuck_fails (e : PubWorld) (chs : List Channel) (s s' : PubServer) (hw : SoundWorld e chs) (hs : FiltersSound s.filters.content) (hl : LogsWell e s.logs.content)
    (hnm : ∀ ch ∈ chs, ch.enabled = true → NamesFollow (e.pub ch.slug).nameOf ∧ NamedAfter (e.pub ch.slug).nameOf (e.db ch.slug) ch.slug s.filters.content ∧ 0 < ch.maxAge)
    (h : publisherMain e chs false s = (none, s')) (ch : Channel) (hch : ch ∈ chs) (hen : ch.enabled = false) (hrec : recordsOf ch.slug s.filters.content ≠ []) (again : List PubWorld) (hagain : ∀ e' ∈ again, SameInputs e e') :
    (again.foldl (fun c e' => (fun f : Coll (List KRec) => f.sign f.look) (publisherMain e' chs false { s' with filters := c }).2.filters) s'.filters) = s'.filters := by
  obtain ⟨_, hsign⟩ := C102_clearing_fails e chs s s' hw hs h ch hch hen hrec
  induction again with
  | nil => rfl
  | cons e' rest ih =>
    rw [List.foldl_cons]
    have h1 := C102_repeat e e' chs s s' hw hs hl hnm h (hagain e' (by simp))
    rw [show ({ s' with filters := s'.filters } : PubServer) = s' from rfl, h1]
    dsimp only
    rw [hsign]
    exact ih (fun e' he => hagain e' (by simp [he]))

/-! ### the requests seen by the server -/

/-- The publications are those of the execution. -/
def PubsOf (e : PubWorld) (chs : List Channel) (noop : Bool) (evs : List (PubSysEvent (List KRec))) : Prop :=
  ∀ x ∈ evs, ∀ f t, x = .publish f t → (∃ ch ∈ chs, ch.enabled = true ∧ f = crliteRun (e.pub ch.slug) (e.db ch.slug) ch.slug ch.maxAge noop) ∨ ∃ env slug noop, f = clearRun env slug noop

theorem pubsOf_crlite {e : PubWorld} {chs : List Channel} {noop : Bool} {evs : List (PubSysEvent (List KRec))} (hw : SoundWorld e chs) (h : PubsOf e chs noop evs) : CrlitePubs evs := by
  intro x hx f t hf
  rcases h x hx f t hf with ⟨ch, h1, h2, h3⟩ | h
  · have hb := hw.bucket ch h1 h2
    exact Or.inl ⟨⟨e.pub ch.slug, e.db ch.slug, ch.slug, ch.maxAge, noop⟩, ⟨hw.dashless ch h1, hw.fresh _, hb.distinct, hb.parse⟩, h3⟩
  · exact Or.inr h

theorem publish_step (p : PubSys (List KRec)) (f : List KRec → List KRec × Bool) (t : Bool) {st : List KRec} {b : Bool} (h : f p.coll.content = (st, b)) :
    p.step (.publish f t) = ⟨p.coll.put t st, b, none, p.signSeen⟩ := by
  have : p.step (.publish f t) = ⟨p.coll.put t (f p.coll.content).1, (f p.coll.content).2, none, p.signSeen⟩ := rfl
  rw [this, h]

theorem run_one (p : PubSys (List KRec)) (x : PubSysEvent (List KRec)) : p.run [x] = p.step x := rfl

theorem channel_events (e : PubWorld) (chs : List Channel) (noop : Bool) (ch : Channel) (hch : ch ∈ chs) (hen : ch.enabled = true) (p : PubSys (List KRec)) :
    ∃ evs, OnlyPublisher evs ∧ PubsOf e chs noop evs ∧ (p.run evs).coll = (channelStage e noop ch p.coll).2 ∧ (p.run evs).signSeen = p.signSeen := by
  have hpubs : ∀ t (tail : List (PubSysEvent (List KRec))), (∀ x ∈ tail, (∀ f t, x ≠ .publish f t) ∧ ∀ c, x ≠ .edit c) →
      OnlyPublisher (.publish (crliteRun (e.pub ch.slug) (e.db ch.slug) ch.slug ch.maxAge noop) t :: tail) ∧ PubsOf e chs noop (.publish (crliteRun (e.pub ch.slug) (e.db ch.slug) ch.slug ch.maxAge noop) t :: tail) := by
    intro t tail ht
    constructor
    · intro x hx c
      rcases List.mem_cons.1 hx with rfl | hx
      · intro h; cases h
      · exact (ht x hx).2 c
    · intro x hx f t' hf
      rcases List.mem_cons.1 hx with rfl | hx
      · cases hf
        exact Or.inl ⟨ch, hch, hen, rfl⟩
      · exact absurd hf ((ht x hx).1 f t')
  unfold channelStage
  by_cases hr : e.reads (.channel ch) = true
  · rw [if_pos hr]
    dsimp only
    cases hp : publishCrlite (e.pub ch.slug) (e.db ch.slug) ch.slug ch.maxAge noop p.coll.content with
    | mk b st =>
      have hrun : ∀ b, crliteAsks (e.pub ch.slug) (e.db ch.slug) ch.slug ch.maxAge noop p.coll.content = b → crliteRun (e.pub ch.slug) (e.db ch.slug) ch.slug ch.maxAge noop p.coll.content = (st, b) := by
        intro b hb
        unfold crliteRun
        rw [hp, hb]
      cases b with
      | false =>
        obtain ⟨q1, q2⟩ := hpubs (e.leftovers (.channel ch) && !noop) [] (fun x hx => by cases hx)
        refine ⟨_, q1, q2, ?_, rfl⟩
        rw [run_one, publish_step p _ _ (hrun _ rfl)]
      | true =>
        dsimp only
        by_cases ha : crliteAsks (e.pub ch.slug) (e.db ch.slug) ch.slug ch.maxAge noop p.coll.content = true
        · rw [if_pos ha]
          by_cases hv : e.reviews (.channel ch) = true
          · obtain ⟨q1, q2⟩ := hpubs true [.pubLook, .pubAsk] (fun x hx => by
              rcases List.mem_cons.1 hx with rfl | hx
              · exact ⟨(fun _ _ h => by cases h), (fun _ h => by cases h)⟩
              · rw [List.mem_singleton] at hx; subst hx; exact ⟨(fun _ _ h => by cases h), (fun _ h => by cases h)⟩)
            refine ⟨_, q1, q2, ?_, ?_⟩
            · unfold PubSys.run
              rw [List.foldl_cons, List.foldl_cons, List.foldl_cons, List.foldl_nil]
              rw [publish_step p _ _ (hrun true ha)]
              unfold requestReview
              rw [if_pos hv]
              rfl
            · unfold PubSys.run
              rw [List.foldl_cons, List.foldl_cons, List.foldl_cons, List.foldl_nil]
              rw [publish_step p _ _ (hrun true ha)]
              rfl
          · obtain ⟨q1, q2⟩ := hpubs true [] (fun x hx => by cases hx)
            refine ⟨_, q1, q2, ?_, rfl⟩
            rw [run_one, publish_step p _ _ (hrun _ rfl)]
            unfold requestReview
            rw [if_neg hv]
        · rw [if_neg ha]
          obtain ⟨q1, q2⟩ := hpubs false [] (fun x hx => by cases hx)
          refine ⟨_, q1, q2, ?_, rfl⟩
          rw [run_one, publish_step p _ _ (hrun _ rfl)]
  · rw [if_neg hr]
    exact ⟨[], (fun x hx => by cases hx), (fun x hx => by cases hx), rfl, rfl⟩

theorem clear_events (e : PubWorld) (chs : List Channel) (noop : Bool) (ch : Channel) (p : PubSys (List KRec)) :
    ∃ evs, OnlyPublisher evs ∧ PubsOf e chs noop evs ∧ (p.run evs).coll = (clearStage e noop ch p.coll).2 ∧ (p.run evs).signSeen = p.signSeen := by
  have hnone : ∃ evs : List (PubSysEvent (List KRec)), OnlyPublisher evs ∧ PubsOf e chs noop evs ∧ (p.run evs).coll = p.coll ∧ (p.run evs).signSeen = p.signSeen :=
    ⟨[], (fun x hx => by cases hx), (fun x hx => by cases hx), rfl, rfl⟩
  cases noop with
  | true => exact hnone
  | false =>
    rcases clearStage_shape e ch p.coll with h | h
    · rw [h]; exact hnone
    · rw [h]
      refine ⟨[.publish (clearRun (e.pub ch.slug) ch.slug false) false], ?_, ?_, rfl, rfl⟩
      · intro x hx c hc
        rw [List.mem_singleton] at hx
        rw [hx] at hc
        cases hc
      · intro x hx f t hf
        rw [List.mem_singleton] at hx
        rw [hx] at hf
        cases hf
        exact Or.inr ⟨_, _, _, rfl⟩

theorem main_events (e : PubWorld) (chs : List Channel) (noop : Bool) (s : PubServer) (p : PubSys (List KRec)) (hp : p.coll = s.filters) :
    ∃ evs, OnlyPublisher evs ∧ PubsOf e chs noop evs ∧ (p.run evs).coll = (publisherMain e chs noop s).2.filters ∧ (p.run evs).signSeen = p.signSeen := by
  have key : ∀ (calls : List PubCall) (s : PubServer) (p : PubSys (List KRec)), (∀ ch, PubCall.channel ch ∈ calls → ch ∈ chs ∧ ch.enabled = true) → p.coll = s.filters →
      ∃ evs, OnlyPublisher evs ∧ PubsOf e chs noop evs ∧ (p.run evs).coll = (runStages e noop calls s).2.filters ∧ (p.run evs).signSeen = p.signSeen := by
    intro calls
    induction calls with
    | nil => intro s p _ hp; exact ⟨[], (fun x hx => by cases hx), (fun x hx => by cases hx), hp, rfl⟩
    | cons g rest ih =>
      intro s p hc hp
      have h1 : ∃ evs, OnlyPublisher evs ∧ PubsOf e chs noop evs ∧ (p.run evs).coll = (stageRun e noop s g).2.filters ∧ (p.run evs).signSeen = p.signSeen := by
        cases g with
        | logs => exact ⟨[], (fun x hx => by cases hx), (fun x hx => by cases hx), hp, rfl⟩
        | inters => exact ⟨[], (fun x hx => by cases hx), (fun x hx => by cases hx), hp, rfl⟩
        | channel ch =>
          obtain ⟨a, b⟩ := hc ch (by simp)
          have := channel_events e chs noop ch a b p
          rw [hp] at this
          exact this
        | clear ch =>
          have := clear_events e chs noop ch p
          rw [hp] at this
          exact this
      obtain ⟨evs1, a1, a2, a3, a4⟩ := h1
      rw [runStages_cons]
      by_cases hok : (stageRun e noop s g).1 = true
      · rw [if_pos hok]
        obtain ⟨evs2, b1, b2, b3, b4⟩ := ih (stageRun e noop s g).2 (p.run evs1) (fun ch hch => hc ch (by simp [hch])) a3
        refine ⟨evs1 ++ evs2, ?_, ?_, by rw [run_append]; exact b3, by rw [run_append, b4, a4]⟩
        · intro x hx
          rcases List.mem_append.1 hx with hx | hx
          · exact a1 x hx
          · exact b1 x hx
        · intro x hx
          rcases List.mem_append.1 hx with hx | hx
          · exact a2 x hx
          · exact b2 x hx
      · rw [if_neg hok]
        exact ⟨evs1, a1, a2, a3, a4⟩
  refine key (mainStages chs) s p (fun ch hch => ?_) hp
  rw [mainStages_eq] at hch
  rcases List.mem_cons.1 hch with h | hch
  · cases h
  · rcases List.mem_append.1 hch with hch | hch
    · exact (mem_filterCalls_channel chs ch).1 hch
    · rw [List.mem_singleton] at hch; cases hch

/-- **C102.** For the collection of filters, an execution, however it ends, is a sequence of publications, removals and requests for review as in the model of review and signature. -/
theorem C102_same_requests (e : PubWorld) (chs : List Channel) (noop : Bool) (s : PubServer) (hw : SoundWorld e chs) (p : PubSys (List KRec)) (hp : p.coll = s.filters) :
    ∃ evs, OnlyPublisher evs ∧ CrlitePubs evs ∧ (p.run evs).coll = (publisherMain e chs noop s).2.filters ∧ (p.run evs).signSeen = p.signSeen := by
  obtain ⟨evs, h1, h2, h3⟩ := main_events e chs noop s p hp
  exact ⟨evs, h1, pubsOf_crlite hw h2, h3⟩

/-- Executions of the publisher and of the sign-off job one after the other. -/
inductive DayStep
  | publish (e : PubWorld) (noop : Bool)
  | signoff

def dayStep (chs : List Channel) (s : PubServer) : DayStep → PubServer
  | .publish e noop => (publisherMain e chs noop s).2
  | .signoff => { s with filters := s.filters.sign s.filters.look }

/-- The publications are those of the executions. -/
def PubsOfDays (chs : List Channel) (steps : List DayStep) (evs : List (PubSysEvent (List KRec))) : Prop :=
  ∀ x ∈ evs, ∀ f t, x = .publish f t → (∃ e noop ch, DayStep.publish e noop ∈ steps ∧ ch ∈ chs ∧ ch.enabled = true ∧ f = crliteRun (e.pub ch.slug) (e.db ch.slug) ch.slug ch.maxAge noop) ∨ ∃ env slug noop, f = clearRun env slug noop

theorem day_events (chs : List Channel) (steps : List DayStep) : ∀ (s : PubServer) (p : PubSys (List KRec)), p.coll = s.filters →
    ∃ evs, OnlyPublisher evs ∧ PubsOfDays chs steps evs ∧ (p.run evs).coll = (steps.foldl (dayStep chs) s).filters := by
  induction steps with
  | nil => intro s p hp; exact ⟨[], (fun x hx => by cases hx), (fun x hx => by cases hx), hp⟩
  | cons d rest ih =>
    intro s p hp
    have h1 : ∃ evs, OnlyPublisher evs ∧ PubsOfDays chs [d] evs ∧ (p.run evs).coll = (dayStep chs s d).filters := by
      cases d with
      | publish e noop =>
        obtain ⟨evs, a1, a2, a3, _⟩ := main_events e chs noop s p hp
        refine ⟨evs, a1, ?_, a3⟩
        intro x hx f t hf
        rcases a2 x hx f t hf with ⟨ch, c1, c2, c3⟩ | hc
        · exact Or.inl ⟨e, noop, ch, by simp, c1, c2, c3⟩
        · exact Or.inr hc
      | signoff =>
        refine ⟨[.signLook, .signPatch], ?_, ?_, ?_⟩
        · intro x hx c hc
          subst hc
          simp at hx
        · intro x hx f t hf
          subst hf
          simp at hx
        · show (p.coll.sign p.coll.look) = _
          rw [hp]
          rfl
    obtain ⟨evs1, a1, a2, a3⟩ := h1
    obtain ⟨evs2, b1, b2, b3⟩ := ih (dayStep chs s d) (p.run evs1) a3
    refine ⟨evs1 ++ evs2, ?_, ?_, by rw [run_append]; exact b3⟩
    · intro x hx
      rcases List.mem_append.1 hx with hx | hx
      · exact a1 x hx
      · exact b1 x hx
    · intro x hx f t hf
      rcases List.mem_append.1 hx with hx | hx
      · rcases a2 x hx f t hf with ⟨e, noop, ch, c0, c1⟩ | hc
        · exact Or.inl ⟨e, noop, ch, by rw [List.mem_singleton] at c0; rw [c0]; simp, c1⟩
        · exact Or.inr hc
      · rcases b2 x hx f t hf with ⟨e, noop, ch, c0, c1⟩ | hc
        · exact Or.inl ⟨e, noop, ch, List.mem_cons_of_mem _ c0, c1⟩
        · exact Or.inr hc

/-- **C102.** Beginning with an empty collection of filters that was never signed, after any executions of publisher and sign-off job, whatever fails in them: what clients get is what the publication of some channel left when it succeeded, and
this channel is a single chain in it. -/
theorem C102_signed (chs : List Channel) (steps : List DayStep) (hsteps : ∀ e noop, DayStep.publish e noop ∈ steps → SoundWorld e chs) (s : PubServer) (hs : s.filters = (PubSys.init ([] : List KRec)).coll) (c : List KRec)
    (h : (steps.foldl (dayStep chs) s).filters.signed = some c) : ∃ e noop ch st, DayStep.publish e noop ∈ steps ∧ ch ∈ chs ∧ ch.enabled = true ∧ SingleChain (recordsOf ch.slug c) ∧
      publishCrlite (e.pub ch.slug) (e.db ch.slug) ch.slug ch.maxAge noop st = (true, c) := by
  obtain ⟨evs, h1, h2, h3⟩ := day_events chs steps s (PubSys.init []) hs.symm
  rw [← h3] at h
  have hcr : CrlitePubs evs := by
    intro x hx f t hf
    rcases h2 x hx f t hf with ⟨e, noop, ch, h0, h1, h2, h3⟩ | h
    · have hw := hsteps e noop h0
      have hb := hw.bucket ch h1 h2
      exact Or.inl ⟨⟨e.pub ch.slug, e.db ch.slug, ch.slug, ch.maxAge, noop⟩, ⟨hw.dashless ch h1, hw.fresh _, hb.distinct, hb.parse⟩, h3⟩
    · exact Or.inr h
  obtain ⟨before, f, t, after, g1, g2⟩ := C84_signed_is_outcome [] evs h1 c h
  have hmem : PubSysEvent.publish f t ∈ evs := by rw [g1]; simp
  have hb1 : OnlyPublisher before := fun x hx => h1 x (by rw [g1]; simp [hx])
  have hb2 : CrlitePubs before := fun x hx => hcr x (by rw [g1]; simp [hx])
  obtain ⟨_, htidy⟩ := crlite_content before hb1 hb2
  rcases h2 _ hmem f t rfl with ⟨e, noop, ch, c0, c1, c2, c3⟩ | ⟨env, slug, noop, c3⟩
  · have hw := hsteps e noop c0
    rw [c3] at g2
    unfold crliteRun at g2
    rw [Prod.mk.injEq] at g2
    obtain ⟨newest, n1, n2, n3, n4⟩ := crliteAsks_true g2.2
    have hpub : publishCrlite (e.pub ch.slug) (e.db ch.slug) ch.slug ch.maxAge noop ((PubSys.init []).run before).coll.content = (true, c) := Prod.ext n4 g2.1
    refine ⟨e, noop, ch, _, c0, c1, c2, ?_, hpub⟩
    subst n3
    obtain ⟨v1, v2⟩ := C67_accepted_after _ _ _ _ newest _ c (hw.dashless ch c1) (hw.fresh _) (htidy _) n1 n2 hpub
    exact ((C66_accepts_iff _).1 v1).resolve_left v2
  · rw [c3] at g2
    have := (clearRun_sublist env slug noop ((PubSys.init []).run before).coll.content).2
    rw [g2] at this
    cases this

/-! ### examples -/

theorem textLt_append (p a b : Text) : textLt (p ++ a) (p ++ b) = textLt a b := by
  induction p with
  | nil => rfl
  | cons c p ih =>
    rw [List.cons_append, List.cons_append]
    conv => lhs; unfold textLt
    rw [if_neg (Nat.lt_irrefl _), if_neg (Nat.lt_irrefl _), ih]

theorem exPub_names : NamesFollow exPub.nameOf := by
  intro a b p q hab _
  obtain ⟨k, rfl⟩ : ∃ k, b = a + (k + 1) := ⟨b - a - 1, by omega⟩
  show textLt (List.replicate a 'z' ++ (if p then "Z-full".toList else "Z-diff".toList)) (List.replicate (a + (k + 1)) 'z' ++ (if q then "Z-full".toList else "Z-diff".toList)) = true
  rw [← List.replicate_append_replicate, List.append_assoc, textLt_append]
  cases p <;> rfl

theorem exDb_sound (ids : List Text) (hids : ids = [exR1] ∨ ids = [exR1, exR2] ∨ ids = [exR1, exR2, exR3]) : SoundBucket (exDb ids) := by
  obtain ⟨_, _, g3, g4⟩ := exStep_good exPub rfl ids hids
  have hk1 : parseRun exR1 = some (20240101, 9) := by decide +kernel
  have hk2 : parseRun exR2 = some (20240101, 10) := by decide +kernel
  have hk3 : parseRun exR3 = some (20240102, 0) := by decide +kernel
  have ht1 : exRunTime exR1 = some 0 := by decide +kernel
  have ht2 : exRunTime exR2 = some 2 := by decide +kernel
  have ht3 : exRunTime exR3 = some 4 := by decide +kernel
  have hmem : ∀ x ∈ ids, x = exR1 ∨ x = exR2 ∨ x = exR3 := by
    intro x hx
    rcases hids with rfl | rfl | rfl
    · exact Or.inl (List.mem_singleton.1 hx)
    · rcases List.mem_cons.1 hx with h | h
      · exact Or.inl h
      · exact Or.inr (Or.inl (List.mem_singleton.1 h))
    · rcases List.mem_cons.1 hx with h | h
      · exact Or.inl h
      · rcases List.mem_cons.1 h with h | h
        · exact Or.inr (Or.inl h)
        · exact Or.inr (Or.inr (List.mem_singleton.1 h))
  refine ⟨g4, g3, ?_, ?_, ?_, ?_⟩
  · intro x hx
    refine ⟨rfl, rfl, ?_⟩
    show ∃ t, exRunTime x = some t
    rcases hmem x hx with rfl | rfl | rfl
    · exact ⟨_, ht1⟩
    · exact ⟨_, ht2⟩
    · exact ⟨_, ht3⟩
  · intro x hx y hy k l a b h1 h2 h3 h4 h5
    change exRunTime x = some a at h4
    change exRunTime y = some b at h5
    unfold KeyLt at h3
    rcases hmem x hx with rfl | rfl | rfl <;> rcases hmem y hy with rfl | rfl | rfl <;>
      (simp only [hk1, hk2, hk3, ht1, ht2, ht3, Option.some.injEq] at h1 h2 h4 h5
       subst h1 h2 h4 h5
       simp at h3 ⊢)
  · intro x hx t h
    change exRunTime x = some t at h
    unfold endOfTime
    rcases hmem x hx with rfl | rfl | rfl
    · rw [ht1] at h
      cases h
      decide
    · rw [ht2] at h
      cases h
      decide
    · rw [ht3] at h
      cases h
      decide
  · intro newest hn x hx
    rcases hids with rfl | rfl | rfl
    · cases hn
      change x ∈ [exR1] at hx
      simp only [List.mem_cons, List.not_mem_nil, or_false] at hx
      subst hx
      exact ⟨_, _, hk1, hk1, by unfold KeyLt; decide⟩
    · cases hn
      change x ∈ [exR1, exR2] at hx
      simp only [List.mem_cons, List.not_mem_nil, or_false] at hx
      rcases hx with rfl | rfl
      · exact ⟨_, _, hk1, hk2, by unfold KeyLt; decide⟩
      · exact ⟨_, _, hk2, hk2, by unfold KeyLt; decide⟩
    · cases hn
      change x ∈ [exR1, exR2, exR3] at hx
      simp only [List.mem_cons, List.not_mem_nil, or_false] at hx
      rcases hx with rfl | rfl | rfl
      · exact ⟨_, _, hk1, hk3, by unfold KeyLt; decide⟩
      · exact ⟨_, _, hk2, hk3, by unfold KeyLt; decide⟩
      · exact ⟨_, _, hk3, hk3, by unfold KeyLt; decide⟩

/-- The longest identifier. -/
def longestCt : List CtRec → Nat
  | [] => 0
  | r :: rest => max r.id.length (longestCt rest)

theorem longestCt_ge (st : List CtRec) : ∀ r ∈ st, r.id.length ≤ longestCt st := by
  induction st with
  | nil => intro r hr; cases hr
  | cons x rest ih =>
    intro r hr
    unfold longestCt
    rcases List.mem_cons.1 hr with rfl | hr
    · exact Nat.le_max_left _ _
    · exact Nat.le_trans (ih r hr) (Nat.le_max_right _ _)

/-- A server that gives identifiers that are longer than all others. -/
def exCtFresh : CtEnv := { exCtEnv with freshId := fun st => List.replicate (longestCt st + 1) 'f' }

/-- Two runs in the bucket, three logs, two enrolled certificates, nothing fails. -/
def exWorld : PubWorld :=
  ⟨some exOps, exCtFresh, fun _ => exPub, fun _ => exDb [exR1, exR2], .entries [some (exI 1), none, some (exI 3)], exInterEnv, fun _ => true, fun _ => true, fun _ => false⟩

theorem exWorld_sound : SoundWorld exWorld channels :=
  ⟨by decide +kernel, by decide +kernel, fun _ => exFresh_fresh, fun _ _ _ => exDb_sound _ (Or.inr (Or.inl rfl))⟩

/-- A full filter of the first run in the channel `default` and in one that is not used. -/
def exFilters : List KRec := afterSteps [⟨exPub, exDb [exR1], "default".toList, 100, false⟩, ⟨exPub, exDb [exR1], "experimental+deltas".toList, 100, false⟩] []

def exServer : PubServer := ⟨⟨[], .signed, 0, some []⟩, ⟨exFilters, .signed, 0, some exFilters⟩, ⟨exInterSt, .signed, 0, some exInterSt⟩⟩

theorem exFilters_sound : FiltersSound exFilters := by
  have h1 := goodStep_content (s := ⟨exPub, exDb [exR1], "default".toList, 100, false⟩) (exStep_good exPub rfl [exR1] (Or.inl rfl)) (st := []) (by simp) (fun c => ⟨(fun r hr => by cases hr), (fun r hr => by cases hr)⟩)
  exact goodStep_content (s := ⟨exPub, exDb [exR1], "experimental+deltas".toList, 100, false⟩) ⟨by show ∀ c ∈ "experimental+deltas".toList, c ≠ '-'; decide +kernel, (exStep_good exPub rfl [exR1] (Or.inl rfl)).2⟩ h1.1 h1.2

def exAfter : PubServer := (publisherMain exWorld channels false exServer).2

theorem exMain : publisherMain exWorld channels false exServer = (none, exAfter) := Prod.ext (by decide +kernel) rfl

example : (publisherMain exWorld channels false exServer).2.filters.content.map (fun r => (r.channel, r.attachment)) =
    [(some "default".toList, some "20240101-9-default.filter".toList), (some "default".toList, some "20240101-10-default.filter.delta".toList), (some "compat".toList, some "20240101-10-compat.filter".toList)] := by decide +kernel

/-- The newest run is published in both channels that are used, the third is empty, the intermediates are those of the run. -/
example : UpToDate "default".toList exR2 exAfter.filters.content ∧ UpToDate "compat".toList exR2 exAfter.filters.content ∧ recordsOf "experimental+deltas".toList exAfter.filters.content = [] ∧
    SameInters [some (exI 1), none, some (exI 3)] exAfter.inters.content := by
  obtain ⟨h1, h2, _, _, h5⟩ := C102_finished exWorld channels exServer exAfter exWorld_sound exFilters_sound exMain
  exact ⟨h1 (channels[1]) (by simp) rfl exR2 rfl, h1 (channels[2]) (by simp) rfl exR2 rfl, h2 (channels[0]) (by simp) rfl, h5 _ rfl⟩

theorem exLogs_well : LogsWell exWorld exServer.logs.content := by
  refine ⟨?_, by simp [exServer], (fun r hr => by cases hr), fun _ => rfl, fun _ => rfl, fun _ => rfl⟩
  intro l r hr h
  have h1 := longestCt_ge l r hr
  have h2 : r.id.length = longestCt l + 1 := by
    rw [h]
    show (List.replicate (longestCt l + 1) 'f').length = _
    exact List.length_replicate
  omega

/-- All logs of the list are in the collection. -/
example : ∃ ops, exWorld.upstream = some ops ∧ SameLogs ops exAfter.logs.content := C102_finished_logs_partial exWorld channels exServer exAfter exWorld_sound exFilters_sound exLogs_well exMain

theorem exNames : ∀ ch ∈ channels, ch.enabled = true → NamesFollow (exWorld.pub ch.slug).nameOf ∧ NamedAfter (exWorld.pub ch.slug).nameOf (exWorld.db ch.slug) ch.slug exServer.filters.content ∧ 0 < ch.maxAge := by
  intro ch hch hen
  refine ⟨exPub_names, ?_, ?_⟩
  · intro r hr x t hx ht
    have hall : ∀ ch ∈ channels, ch.enabled = true → ∀ r ∈ recordsOf ch.slug exFilters, recordRun r = some exR1 ∧ r.name = exPub.nameOf 0 true := by decide +kernel
    obtain ⟨a, b⟩ := hall ch hch hen r hr
    rw [a] at hx
    cases hx
    change exRunTime exR1 = some t at ht
    rw [show exRunTime exR1 = some 0 by decide +kernel] at ht
    cases ht
    exact ⟨true, b⟩
  · revert hch hen
    revert ch
    decide +kernel

/-- A second execution changes nothing, although all its requests to delete fail and no record of a log can be created. -/
example : (publisherMain { exWorld with pub := fun _ => { exPub with deleteOk := fun _ => false }, ct := { exCtFresh with createOk := fun _ => false } } channels false exAfter).2 = exAfter :=
  C102_repeat exWorld _ channels exServer exAfter exWorld_sound exFilters_sound exLogs_well exNames exMain ⟨rfl, rfl, rfl, fun _ => rfl⟩

/-- Logs and intermediates are submitted; but a record of the channel that is not used had to be removed, and the filters are not. -/
example : exAfter.logs.status ≠ .workInProgress ∧ exAfter.inters.status ≠ .workInProgress ∧ exAfter.filters.status = .workInProgress := by
  obtain ⟨h1, h2, _⟩ := C102_submitted_partial exWorld channels exServer exAfter exWorld_sound exFilters_sound exMain
  exact ⟨h1, h2 (by intro h; cases h), (C102_clearing_fails exWorld channels exServer exAfter exWorld_sound exFilters_sound exMain (channels[0]) (by simp) rfl (by decide +kernel)).1⟩

/-- This remains so: the new filters never reach the clients before there is another run. -/
example : ([exWorld, exWorld, exWorld].foldl (fun c e' => (fun f : Coll (List KRec) => f.sign f.look) (publisherMain e' channels false { exAfter with filters := c }).2.filters) exAfter.filters) = exAfter.filters :=
  C102_stuck_fails exWorld channels exServer exAfter exWorld_sound exFilters_sound exLogs_well exNames exMain (channels[0]) (by simp) rfl (by decide +kernel) [exWorld, exWorld, exWorld]
    (fun e' he => by simp at he; subst he; exact ⟨rfl, rfl, rfl, fun _ => rfl⟩)

example : exAfter.filters.signed = some exFilters ∧ exAfter.filters.content ≠ exFilters := by decide +kernel

/-- Without such a record the filters are submitted, and signed. -/
example : (fun f : Coll (List KRec) => (f.sign f.look).signed) (publisherMain exWorld channels false { exServer with filters := ⟨[], .workInProgress, 0, none⟩ }).2.filters =
    some (publisherMain exWorld channels false { exServer with filters := ⟨[], .workInProgress, 0, none⟩ }).2.filters.content := by decide +kernel

/-- What is signed is what a publication left. -/
example (c : List KRec) (h : ([DayStep.publish exWorld false, .signoff, .publish exWorld true, .signoff].foldl (dayStep channels) { exServer with filters := (PubSys.init ([] : List KRec)).coll }).filters.signed = some c) :
    ∃ ch ∈ channels, SingleChain (recordsOf ch.slug c) := by
  obtain ⟨_, _, ch, _, _, h1, _, h2, _⟩ := C102_signed channels _ (fun e noop he => by simp at he; rcases he with ⟨rfl, _⟩ | ⟨rfl, _⟩ <;> exact exWorld_sound) _ rfl c h
  exact ⟨ch, h1, h2⟩

/-- The dry run. -/
example : (publisherMain exWorld channels true exServer).2 = exServer := C102_noop exWorld channels exServer

/-- Google's list has a wrong identifier for one log: no filter and no intermediate is published. -/
example : publisherMain { exWorld with upstream := some [⟨"op".toList, [exRaw "L1" ["usable"]], [{ exRaw "L2" ["usable"] with key := "x".toList }]⟩] } channels false exServer = (some .logs, exServer) :=
  C102_log_list_fails _ channels false exServer (fun ops hops => by
    cases hops
    exact Or.inr (by decide +kernel))

/-- An attachment cannot be stored for `default`: `compat` and the intermediates stay as they are. -/
example : ∃ s', publisherMain { exWorld with pub := fun t => if t = "default".toList then exPubNoCreate else exPub } channels false exServer = (some (.channel channels[1]), s') ∧
    recordsOf "compat".toList s'.filters.content = recordsOf "compat".toList exServer.filters.content ∧ s'.inters = exServer.inters := by
  have hw : SoundWorld { exWorld with pub := fun t => if t = "default".toList then exPubNoCreate else exPub } channels :=
    ⟨by decide +kernel, by decide +kernel, (fun t => by dsimp only; split <;> exact exFresh_fresh), fun _ _ _ => exDb_sound _ (Or.inr (Or.inl rfl))⟩
  have hm : publisherMain { exWorld with pub := fun t => if t = "default".toList then exPubNoCreate else exPub } channels false exServer =
      (some (.channel channels[1]), (publisherMain { exWorld with pub := fun t => if t = "default".toList then exPubNoCreate else exPub } channels false exServer).2) := Prod.ext (by decide +kernel) rfl
  obtain ⟨_, h2, _, h4⟩ := C102_stops _ channels exServer _ _ hw exFilters_sound hm
  exact ⟨_, hm, h4 _ [] [channels[2]] rfl rfl channels[2] (Or.inl (by simp)), h2 (by intro h; cases h)⟩

/-- **C102 fails** as to the logs: requests that are refused are only logged (main.py:1185-1186, 1206-1207, 1247-1248). No log of the list can be stored, and the execution ends without exception and submits the collection without them. -/
theorem C102_unnoticed_fails : ∃ e s', SoundWorld e channels ∧ publisherMain e channels false exServer = (none, s') ∧ e.upstream = some exOps ∧ upstreamLogs exOps ≠ [] ∧ s'.logs.content = [] := by
  refine ⟨{ exWorld with ct := { exCtFresh with createOk := fun _ => false } }, (publisherMain { exWorld with ct := { exCtFresh with createOk := fun _ => false } } channels false exServer).2, ?_, Prod.ext (by decide +kernel) rfl, rfl, ?_, ?_⟩
  · exact ⟨by decide +kernel, by decide +kernel, fun _ => exFresh_fresh, fun _ _ _ => exDb_sound _ (Or.inr (Or.inl rfl))⟩
  · decide +kernel
  · decide +kernel

/-- The upload of an attachment ends the program. -/
def exDying : PubWorld := { exWorld with inter := { exInterEnv with add := fun _ => .dies }, leftovers := fun _ => true }

example : (intersStage exDying false ⟨[], .signed, 0, some []⟩).1 = false ∧ (intersStage exDying false ⟨[], .signed, 0, some []⟩).2.status = .workInProgress :=
  C102_interrupted exDying ⟨[], .signed, 0, some []⟩ _ [] [] rfl rfl rfl rfl (Or.inr (Or.inl ⟨exI 1, by decide +kernel, fun r h => by cases h⟩)) (by decide +kernel)

/-- The hypotheses of `C102_noop_ends` can be met. -/
example : publisherMain exWorld channels true exServer = (none, exServer) :=
  C102_noop_ends exWorld channels exServer exOps rfl (by decide +kernel) (fun _ => rfl) (by decide +kernel) (fun h => by cases h) (by decide +kernel)

/-- A record without enrollment of the first log of the list. -/
example : (publisherMain exWorld channels false { exServer with logs := ⟨[⟨"x".toList, ((upstreamLogs exOps).map UpLog.logID).headD [], none, none⟩], .signed, 0, none⟩ }).1 = some .logs :=
  (C102_unmarked_fails exWorld channels false _ exOps rfl _ (List.mem_singleton.2 rfl) rfl (by decide +kernel)).1

/-! ### each theorem applied -/

example := C102_same_requests exWorld channels false exServer exWorld_sound ⟨exServer.filters, false, none, none⟩ rfl

end Verif.Props
