import Verif.Spec.Served
/-!
C120: from the publisher to the query program. After a successful update the filters that the query program loads are those the publisher has published in its channel, whatever was in the directory and whatever the server of the
attachments sends.
-/
namespace Verif.Props
open Verif.Spec

theorem channelName_plain (chan : ClientChannel) : ∀ c ∈ channelName chan, c ≠ '-' := by
  cases chan <;> decide +kernel

theorem channelName_direct (chan : ClientChannel) : '/' ∉ channelName chan := by
  cases chan <;> decide +kernel

/-! ### names -/

theorem isRun_direct {run : Text} (h : IsRun run) : '/' ∉ run := by
  obtain ⟨d, n, hd, _, rfl⟩ := h
  unfold runName
  rw [List.mem_append, List.mem_cons]
  rintro (h | h | h)
  · exact absurd (hd.2 _ h).1 (by decide)
  · exact absurd h (by decide)
  · exact absurd (Nat.isDigit_of_mem_toDigits (by decide) (by decide) h) (by decide)

theorem suffixes_direct : '/' ∉ ".filter".toList ∧ '/' ∉ ".filter.delta".toList := by decide +kernel

theorem delta_suffix : ".filter.delta".toList = ".filter".toList ++ ".delta".toList := by decide +kernel

theorem carried_name {slug run : Text} {r : KRec} {n : Text} (hr : '/' ∉ run) (hs : '/' ∉ slug) (h : Carries slug run r) (hn : r.attachment = some n) : Spec.Direct n ∧ Spec.FilterName n := by
  have hhead : ∀ t, '/' ∉ t → '/' ∉ run ++ '-' :: slug ++ t := by
    intro t ht
    rw [List.append_assoc, List.mem_append, List.cons_append, List.mem_cons, List.mem_append]
    rintro (h | h | h | h)
    · exact hr h
    · exact absurd h (by decide)
    · exact hs h
    · exact ht h
  rcases h with ⟨_, h⟩ | ⟨_, h⟩
  · rw [hn, Option.some.injEq] at h
    subst h
    exact ⟨hhead _ suffixes_direct.1, _, by simp, Or.inr rfl⟩
  · rw [hn, Option.some.injEq] at h
    subst h
    refine ⟨hhead _ suffixes_direct.2, run ++ '-' :: slug ++ ".filter".toList, by simp, Or.inl ?_⟩
    rw [delta_suffix, List.append_assoc (run ++ '-' :: slug)]

theorem full_ne_delta (a b : Text) : a ++ ".filter".toList ≠ b ++ ".filter.delta".toList := by
  intro e
  have := congrArg List.getLast? e
  rw [List.getLast?_append, List.getLast?_append, show ".filter".toList.getLast? = some 'r' by decide +kernel, show ".filter.delta".toList.getLast? = some 'a' by decide +kernel] at this
  exact absurd (Option.some.inj this) (by decide)

/-- A name tells the run and the kind. -/
theorem carries_same {slug x y : Text} {r r' : KRec} (hs : ∀ c ∈ slug, c ≠ '-') (h : Carries slug x r) (h' : Carries slug y r') (e : r.attachment = r'.attachment) : x = y ∧ r.incremental = r'.incremental := by
  constructor
  · refine attachment_unique (r := r) hs (carries_attachment h) ?_
    have := carries_attachment h'
    unfold attachmentOf at this ⊢
    rw [e]
    exact this
  · rcases h with ⟨h1, h2⟩ | ⟨h1, h2⟩ <;> rcases h' with ⟨h3, h4⟩ | ⟨h3, h4⟩
    · rw [h1, h3]
    · rw [e, h4, Option.some.injEq] at h2
      exact absurd h2.symm (full_ne_delta _ _)
    · rw [e, h4, Option.some.injEq] at h2
      exact absurd h2 (full_ne_delta _ _)
    · rw [h1, h3]

/-! ### the records received -/

/-- What the query program keeps of a record. -/
def FromRaw (w : RawFilterRec) (f : FilterRec) : Prop := f.hash = w.hash ∧ f.filename = w.filename ∧ f.location = w.location ∧ f.incremental = w.incremental

theorem parseChannel_name {t : Option Text} {c : Option ClientChannel} (h : parseChannel t = some c) (chan : ClientChannel) : c.getD .default = chan ↔ t.getD "default".toList = channelName chan := by
  have hne : "default".toList ≠ "compat".toList := by decide +kernel
  have hdef : (ClientChannel.default = chan) ↔ "default".toList = channelName chan := by
    cases chan
    · exact ⟨fun _ => rfl, fun _ => rfl⟩
    · exact ⟨fun h => (by cases h), fun h => absurd h hne⟩
  have hcom : (ClientChannel.compat = chan) ↔ "compat".toList = channelName chan := by
    cases chan
    · exact ⟨fun h => (by cases h), fun h => absurd h.symm hne⟩
    · exact ⟨fun _ => rfl, fun _ => rfl⟩
  cases t with
  | none =>
    simp only [parseChannel] at h
    cases h
    exact hdef
  | some t =>
    simp only [parseChannel] at h
    by_cases h1 : t = "default".toList
    · rw [if_pos h1] at h
      cases h
      rw [h1]
      exact hdef
    · rw [if_neg h1] at h
      by_cases h2 : t = "compat".toList
      · rw [if_pos h2] at h
        cases h
        rw [h2]
        exact hcom
      · rw [if_neg h2] at h
        cases h

section
variable {sha : Bytes → Bytes} {b : List StoredObj} {chan : ClientChannel}

/-- The listed records and the published ones of the channel correspond. -/
theorem listed_served : ∀ (recs : List KRec) (raw : List RawFilterRec) (fl : List FilterRec), ServedAll sha b chan recs raw → parseRecords raw = some fl →
    (∀ f ∈ listedOf chan fl, ∃ r ∈ recordsOf (channelName chan) recs, ∃ w, w ∈ raw ∧ ServedAs sha b chan r w ∧ FromRaw w f) ∧
    (∀ r ∈ recordsOf (channelName chan) recs, ∃ f ∈ listedOf chan fl, ∃ w, w ∈ raw ∧ ServedAs sha b chan r w ∧ FromRaw w f) ∧
    ((listedOf chan fl).filter (fun f => !f.incremental)).length = ((recordsOf (channelName chan) recs).filter (fun r => decide (r.incremental = some false))).length
  | [], [], fl, _, hp => by
    unfold parseRecords at hp
    cases hp
    exact ⟨fun f hf => (by cases hf), fun r hr => (by cases hr), rfl⟩
  | [], _ :: _, _, h, _ => h.elim
  | _ :: _, [], _, h, _ => h.elim
  | r :: rs, w :: ws, fl, h, hp => by
    obtain ⟨hw, hrest⟩ := h
    unfold parseRecords at hp
    cases hc : parseChannel w.channel with
    | none => rw [hc] at hp; cases hp
    | some c =>
      cases hl : parseRecords ws with
      | none => rw [hc, hl] at hp; cases hp
      | some l =>
        rw [hc, hl] at hp
        cases hp
        obtain ⟨i1, i2, i3⟩ := listed_served rs ws l hrest hl
        have hiff := parseChannel_name hc chan
        rw [hw.channel] at hiff
        unfold listedOf recordsOf at *
        rw [List.filter_cons, List.filter_cons]
        dsimp only
        by_cases hk : c.getD .default = chan
        · rw [if_pos (decide_eq_true hk), if_pos (decide_eq_true (hiff.1 hk))]
          refine ⟨?_, ?_, ?_⟩
          · intro f hf
            rcases List.mem_cons.1 hf with rfl | hf
            · exact ⟨r, List.mem_cons_self, w, List.mem_cons_self, hw, rfl, rfl, rfl, rfl⟩
            · obtain ⟨r', h1, w', h2, h3⟩ := i1 f hf
              exact ⟨r', List.mem_cons_of_mem _ h1, w', List.mem_cons_of_mem _ h2, h3⟩
          · intro r' hr'
            rcases List.mem_cons.1 hr' with rfl | hr'
            · exact ⟨_, List.mem_cons_self, w, List.mem_cons_self, hw, rfl, rfl, rfl, rfl⟩
            · obtain ⟨f, h1, w', h2, h3⟩ := i2 r' hr'
              exact ⟨f, List.mem_cons_of_mem _ h1, w', List.mem_cons_of_mem _ h2, h3⟩
          · rw [List.filter_cons, List.filter_cons]
            dsimp only
            have hinc := hw.incremental
            cases hwi : w.incremental with
            | true =>
              rw [hwi] at hinc
              rw [if_neg (by decide), if_neg (by rw [hinc]; decide)]
              exact i3
            | false =>
              rw [hwi] at hinc
              rw [if_pos (by decide), if_pos (by rw [hinc]; decide), List.length_cons, List.length_cons, i3]
        · rw [if_neg (by simpa using hk), if_neg (by simpa using fun e => hk (hiff.2 e))]
          refine ⟨?_, ?_, i3⟩
          · intro f hf
            obtain ⟨r', h1, w', h2, h3⟩ := i1 f hf
            exact ⟨r', h1, w', List.mem_cons_of_mem _ h2, h3⟩
          · intro r' hr'
            obtain ⟨f, h1, w', h2, h3⟩ := i2 r' hr'
            exact ⟨f, h1, w', List.mem_cons_of_mem _ h2, h3⟩

end

theorem parseRecords_known : ∀ (raw : List RawFilterRec), (∀ w ∈ raw, ∀ t, w.channel = some t → ∃ chan, t = channelName chan) → ∃ fl, parseRecords raw = some fl
  | [], _ => ⟨[], rfl⟩
  | w :: ws, h => by
    obtain ⟨l, hl⟩ := parseRecords_known ws (fun x hx => h x (List.mem_cons_of_mem _ hx))
    have hc : ∃ c, parseChannel w.channel = some c := by
      cases ht : w.channel with
      | none => exact ⟨_, rfl⟩
      | some t =>
        obtain ⟨chan, rfl⟩ := h w List.mem_cons_self t ht
        cases chan
        · exact ⟨some .default, by decide +kernel⟩
        · exact ⟨some .compat, by decide +kernel⟩
    obtain ⟨c, hc⟩ := hc
    unfold parseRecords
    rw [hc, hl]
    exact ⟨_, rfl⟩

/-! ### the files -/

theorem updateOne_contents (env : UpdateEnv) (r : FilterRec) (fs fs' : Files) (h : updateOne env r fs = (true, fs')) (n : Text) (c : Bytes) (hc : assocGet fs' n = some c) : assocGet fs n = some c ∨ ∃ u, env.fetch u = some c := by
  have fetched : ∀ want, fetchFilter env want r fs = (true, fs') → assocGet fs n = some c ∨ ∃ u, env.fetch u = some c := by
    intro want h
    unfold fetchFilter at h
    split at h
    · cases h
    · rename_i x hx
      split at h
      · split at h
        · cases h
          by_cases hn : n = r.filename
          · rw [hn, assocGet_put_self, Option.some.injEq] at hc
            exact Or.inr ⟨_, by rw [hx, hc]⟩
          · rw [assocGet_put_ne _ _ _ _ hn] at hc
            exact Or.inl hc
        · cases h
      · cases h
  unfold updateOne at h
  split at h
  · cases h
  · split at h
    · split at h
      · cases h
        exact Or.inl hc
      · exact fetched _ h
    · exact fetched _ h

theorem updateLoop_contents (env : UpdateEnv) : ∀ (l : List FilterRec) (fs fs' : Files), updateLoop env l fs = (true, fs') → ∀ n c, assocGet fs' n = some c → assocGet fs n = some c ∨ ∃ u, env.fetch u = some c
  | [], fs, fs', h, n, c, hc => by
    unfold updateLoop at h
    cases h
    exact Or.inl hc
  | r :: rest, fs, fs', h, n, c, hc => by
    unfold updateLoop at h
    cases ho : updateOne env r fs with
    | mk ok fs1 =>
      rw [ho] at h
      cases ok with
      | false => cases h
      | true =>
        rcases updateLoop_contents env rest fs1 fs' h n c hc with h1 | h1
        · exact updateOne_contents env r fs fs1 ho n c h1
        · exact Or.inr h1

/-- What is in the directory after an update was there or was downloaded. -/
theorem updateDb_contents (env : UpdateEnv) (chan : ClientChannel) (raw : List RawFilterRec) (fs fs' : Files) (h : updateDb env chan raw fs = (true, fs')) (hnd : (fs.map Prod.fst).Nodup) (n : Text) (c : Bytes)
    (hc : assocGet fs' n = some c) : (∃ m, assocGet fs m = some c) ∨ ∃ u, env.fetch u = some c := by
  unfold updateDb at h
  split at h
  · cases h
  · dsimp only at h
    split at h
    · rcases updateLoop_contents env _ _ _ h n c hc with h1 | h1
      · exact Or.inl ⟨n, assocGet_of_mem hnd (List.mem_filter.1 (assocGet_mem h1)).1⟩
      · exact Or.inr h1
    · cases h

theorem updateDb_parsed {env : UpdateEnv} {chan : ClientChannel} {raw : List RawFilterRec} {fs fs' : Files} (h : updateDb env chan raw fs = (true, fs')) : ∃ fl, parseRecords raw = some fl := by
  unfold updateDb at h
  split at h
  · cases h
  · exact ⟨_, by assumption⟩

theorem served_mem {chan : ClientChannel} {recs st : List KRec} (h : recs.Perm st) (r : KRec) : r ∈ recordsOf (channelName chan) recs ↔ r ∈ recordsOf (channelName chan) st := by
  unfold recordsOf
  rw [List.mem_filter, List.mem_filter, h.mem_iff]

section
variable {F : Type} {card : Bytes → Option (Card F)} {s : Ops} {chan : ClientChannel} {env : UpdateEnv} {recs : List KRec} {raw : List RawFilterRec} {fs fs' : Files} {l : List (Text × Card F)}

/-- Each listed file is that of a complete run. -/
theorem listed_file (h : OpsReach s) (hrecs : recs.Perm s.recs) (hserve : ServedAll env.sha s.bucket chan recs raw) {fl : List FilterRec} (hfl : parseRecords raw = some fl) :
    ∀ f ∈ listedOf chan fl, ∃ r ∈ recordsOf (channelName chan) s.recs, ∃ run, Finished s.bucket run ∧ Carries (channelName chan) run r ∧ r.attachment = some f.filename ∧
      ∃ bytes, objGet s.bucket (fileIn (channelDir chan) run r) = some bytes ∧ hexDecode f.hash = some (env.sha bytes) := by
  have hfol := ((reach_recsInv h).2 (channelName chan) (channelName_plain chan)).2.1
  obtain ⟨c1, _, _⟩ := listed_served recs raw fl hserve hfl
  intro f hf
  obtain ⟨r, hr, w, _, hw, e1, e2, _, _⟩ := c1 f hf
  have hr' := (served_mem hrecs r).1 hr
  obtain ⟨run, hfin, hcar⟩ := hfol r hr' (by rw [hw.filename]; rfl)
  obtain ⟨bytes, hb, hh⟩ := hw.stored (of_decide_eq_true (List.mem_filter.1 hr).2) run hcar
  exact ⟨r, hr', run, hfin, hcar, by rw [hw.filename, e2], bytes, hb, by rw [e1]; exact hh⟩

theorem listed_same (h : OpsReach s) (hrecs : recs.Perm s.recs) (hserve : ServedAll env.sha s.bucket chan recs raw) {fl : List FilterRec} (hfl : parseRecords raw = some fl) :
    ∀ f1 ∈ listedOf chan fl, ∀ f2 ∈ listedOf chan fl, f1.filename = f2.filename → hexDecode f1.hash = hexDecode f2.hash := by
  intro f1 h1 f2 h2 e
  obtain ⟨r1, _, x, _, hx, a1, b1, o1, d1⟩ := listed_file h hrecs hserve hfl f1 h1
  obtain ⟨r2, _, y, _, hy, a2, b2, o2, d2⟩ := listed_file h hrecs hserve hfl f2 h2
  obtain ⟨rfl, hi⟩ := carries_same (channelName_plain chan) hx hy (by rw [a1, a2, e])
  have e1 : fileIn (channelDir chan) x r1 = fileIn (channelDir chan) x r2 := by
    unfold fileIn
    rw [hi]
  rw [e1, o2, Option.some.injEq] at o1
  rw [d1, d2, o1]

theorem listed_names (h : OpsReach s) (hrecs : recs.Perm s.recs) (hserve : ServedAll env.sha s.bucket chan recs raw) {fl : List FilterRec} (hfl : parseRecords raw = some fl) :
    ∀ f ∈ listedOf chan fl, Spec.Direct f.filename ∧ Spec.FilterName f.filename := by
  intro f hf
  obtain ⟨r, _, run, hfin, hcar, ha, _⟩ := listed_file h hrecs hserve hfl f hf
  exact carried_name (isRun_direct hfin.1.1) (channelName_direct chan) hcar ha

/-- **C120 (partial).** Full statement: without `hrem`. Proved: after any history of generations and publications, stopped anywhere, if the server serves the records that the publisher left, an update of the query program has succeeded and
the filters load, then they are exactly the filters that the publisher has published in the channel, whatever was in the directory before and whatever the downloads gave, if removals succeed and no content with the digest of a published
filter is another one. Missing: `C64_remove_fails`. -/
theorem C120_loaded_partial (h : OpsReach s) (hrecs : recs.Perm s.recs) (hserve : ServedAll env.sha s.bucket chan recs raw) (hnd : (fs.map Prod.fst).Nodup) (hrem : ∀ n, env.removable n = true) (hno : NoForgery env s.bucket fs)
    (hup : updateDb env chan raw fs = (true, fs')) (hload : loadFilters card fs' = some l) :
    ClientCardsIn card s.bucket (channelDir chan) (channelName chan) (recordsOf (channelName chan) s.recs) (l.map Prod.snd) := by
  obtain ⟨fl, hfl⟩ := updateDb_parsed hup
  obtain ⟨_, c2, _⟩ := listed_served recs raw fl hserve hfl
  have hmem := served_mem (chan := chan) hrecs
  have hfile := listed_file h hrecs hserve hfl
  have hsame := listed_same h hrecs hserve hfl
  have hnames := listed_names h hrecs hserve hfl
  obtain ⟨x1, x2, _, _, x5⟩ := C64_exact_partial env chan raw fs fs' hup fl hfl hrem hsame
  have hnd' := x5 hnd
  have hspec := loadFilters_spec card fs' l hload
  obtain ⟨_, y2⟩ := C64_loaded_partial card env chan raw fs fs' hnd hup fl hfl hrem hsame hnames l hload
  -- what is in a listed file is what was published
  have hcontent : ∀ f ∈ listedOf chan fl, ∀ p bytes, objGet s.bucket p = some bytes → hexDecode f.hash = some (env.sha bytes) → assocGet fs' f.filename = some bytes := by
    intro f hf p bytes ho hh
    obtain ⟨c, hc, hd⟩ := x2 f hf
    rw [hh, Option.some.injEq] at hd
    rw [hc, hno c (updateDb_contents env chan raw fs fs' hup hnd _ _ hc) p bytes ho hd.symm]
  intro k
  rw [List.mem_map]
  constructor
  · rintro ⟨e, he, rfl⟩
    obtain ⟨c, hc, hd, hf, hcard⟩ := (hspec e).1 he
    have hg := assocGet_of_mem hnd' hc
    obtain ⟨f, hfm, hn⟩ := (x1 e.1 ((inDir_iff _).1 hd) ((isFilterFile_iff _).1 hf)).1 (by rw [hg]; exact fun e => by cases e)
    obtain ⟨r, hr, run, _, hcar, _, bytes, ho, hh⟩ := hfile f hfm
    have := hcontent f hfm _ bytes ho hh
    rw [hn, hg, Option.some.injEq] at this
    rw [this] at hcard
    exact ⟨r, hr, run, hcar, bytes, ho, hcard⟩
  · rintro ⟨r, hr, run, hcar, bytes, ho, hcard⟩
    obtain ⟨f, hf, w, _, hw, e1, e2, _, _⟩ := c2 r ((hmem r).2 hr)
    obtain ⟨bytes', ho', hh⟩ := hw.stored (of_decide_eq_true (List.mem_filter.1 hr).2) run hcar
    rw [ho, Option.some.injEq] at ho'
    subst ho'
    have hc := hcontent f hf _ bytes ho (by rw [e1]; exact hh)
    exact ⟨(f.filename, k), (hspec _).2 ⟨bytes, assocGet_mem hc, (inDir_iff _).2 (hnames f hf).1, (isFilterFile_iff _).2 (hnames f hf).2, hcard⟩, rfl⟩

end

/-! ### when an update succeeds -/

theorem updateOne_honest (env : UpdateEnv) (r : FilterRec) (fs : Files) (h : ∃ b, env.fetch r.location = some b ∧ hexDecode r.hash = some (env.sha b)) (hw : ∀ n, env.writeFails n = none) : ∃ fs', updateOne env r fs = (true, fs') := by
  obtain ⟨b, hb, hh⟩ := h
  have fetched : ∃ fs', fetchFilter env (env.sha b) r fs = (true, fs') := by
    unfold fetchFilter
    rw [hb]
    dsimp only
    rw [if_pos rfl, hw]
    exact ⟨_, rfl⟩
  unfold updateOne
  rw [hh]
  dsimp only
  split
  · split
    · exact ⟨_, rfl⟩
    · exact fetched
  · exact fetched

theorem updateLoop_honest (env : UpdateEnv) (hw : ∀ n, env.writeFails n = none) : ∀ (l : List FilterRec) (fs : Files), (∀ r ∈ l, ∃ b, env.fetch r.location = some b ∧ hexDecode r.hash = some (env.sha b)) → ∃ fs', updateLoop env l fs = (true, fs')
  | [], fs, _ => ⟨fs, rfl⟩
  | r :: rest, fs, h => by
    obtain ⟨fs1, h1⟩ := updateOne_honest env r fs (h r List.mem_cons_self) hw
    unfold updateLoop
    rw [h1]
    exact updateLoop_honest env hw rest fs1 (fun x hx => h x (List.mem_cons_of_mem _ hx))

theorem linked_fulls : ∀ (i : Text) (l : List KRec), Linked i l → l.filter (fun r => decide (r.incremental = some false)) = []
  | _, [], _ => rfl
  | _, r :: rest, h => by
    obtain ⟨h1, _, _, i, _, h2⟩ := h
    rw [List.filter_cons, if_neg (by rw [h1]; decide), linked_fulls i rest h2]

theorem chain_fulls {l : List KRec} (h : IsChain l) : (l.filter (fun r => decide (r.incremental = some false))).length = 1 := by
  cases l with
  | nil => exact h.elim
  | cons r rest =>
    obtain ⟨h1, _, i, _, h2⟩ := h
    rw [List.filter_cons, if_pos (by rw [h1]; decide), linked_fulls i rest h2]
    rfl

/-- **C120, success.** If the channel is a chain, all channels published are known to the query program, and the attachments of the channel can be downloaded with their digests and written, the update succeeds, whatever was there before. -/
theorem C120_succeeds (chan : ClientChannel) (env : UpdateEnv) (b : List StoredObj) (recs : List KRec) (raw : List RawFilterRec) (fs : Files) (hserve : ServedAll env.sha b chan recs raw) (l : List KRec)
    (hl : l.Perm (recordsOf (channelName chan) recs)) (hc : IsChain l) (hknown : ∀ w ∈ raw, ∀ t, w.channel = some t → ∃ chan', t = channelName chan')
    (hfetch : ∀ w ∈ raw, w.channel.getD "default".toList = channelName chan → ∃ c, env.fetch w.location = some c ∧ hexDecode w.hash = some (env.sha c)) (hwrite : ∀ n, env.writeFails n = none) :
    ∃ fs', updateDb env chan raw fs = (true, fs') := by
  obtain ⟨fl, hfl⟩ := parseRecords_known raw hknown
  obtain ⟨c1, _, c3⟩ := listed_served recs raw fl hserve hfl
  unfold updateDb
  rw [hfl]
  dsimp only
  change ∃ fs', (if ((listedOf chan fl).filter (fun r => !r.incremental)).length = 1 then updateLoop env (listedOf chan fl) (removeStale env ((listedOf chan fl).map FilterRec.filename) fs) else (false, fs)) = (true, fs')
  rw [if_pos (by rw [c3, ← (hl.filter _).length_eq]; exact chain_fulls hc)]
  refine updateLoop_honest env hwrite _ _ ?_
  intro f hf
  obtain ⟨r, hr, w, hwm, hw, e1, _, e3, _⟩ := c1 f hf
  rw [e1, e3]
  refine hfetch w hwm ?_
  rw [hw.channel]
  exact of_decide_eq_true (List.mem_filter.1 hr).2

/-! ### the answers -/

theorem clientCards_perm {F : Type} {card : Bytes → Option (Card F)} {b : List StoredObj} {dir slug : Text} {l l' : List KRec} {cards : List (Card F)} (h : ClientCardsIn card b dir slug l' cards) (hp : l.Perm l') :
    ClientCardsIn card b dir slug l cards := by
  intro c
  rw [h c]
  constructor <;> rintro ⟨r, hr, hrest⟩
  · exact ⟨r, hp.mem_iff.2 hr, hrest⟩
  · exact ⟨r, hp.mem_iff.1 hr, hrest⟩

section
variable {F : Type} (dec : Bytes → Option (List Bytes)) (card : Bytes → Option (Card F)) (build : List Bytes → List (Bytes × Bool) → Option F) (contains : F → Bytes → Bool) (enrolls : F → Bytes → Bool)
  (he : EnrollsInput build enrolls) (order : List Text → List Text) (W : GenRun → RunInput) (X : GenRun → Dir) (cov : GenRun → Coverage) (parse : Bytes → Option IssuerCert) (verifies : Bytes → Bool)
  (inter : Intermediates) (s : Ops) (h : OpsReach s) (hgen : ∀ y a prev, Finished s.bucket y → MadeBy s y a prev → Generates dec card build contains order a (W a) (X a) (cov a))
  (chan : ClientChannel) (env : UpdateEnv) (recs : List KRec) (raw : List RawFilterRec) (fs fs' : Files) (hrecs : recs.Perm s.recs) (hserve : ServedAll env.sha s.bucket chan recs raw) (hnd : (fs.map Prod.fst).Nodup)
  (hrem : ∀ n, env.removable n = true) (hno : NoForgery env s.bucket fs) (hup : updateDb env chan raw fs = (true, fs')) (loaded : List (Text × Card F)) (hload : loadFilters card fs' = some loaded)
  (l : List KRec) (hl : l.Perm (recordsOf (channelName chan) s.recs)) (hc : IsChain l)
include he h hgen hrecs hserve hnd hrem hno hup hload hl hc

/-- **C120, Revoked (partial).** Full statement: without `hcov` and `hrem`. Proved: from the generation to the answer: the query program, after an update from the channel with all reasons, answers Revoked for a certificate known and
revoked in the last run of the published chain, valid now and with a known issuer, if each run of the chain that knew it as revoked covered one of its SCTs. Missing: `C74_known_elsewhere_fails`, `C64_remove_fails`. -/
theorem C120_revoked_partial (hchan : chan = .default) (c : ClientCert) (spki : Bytes) (hlk : lookupSpki parse verifies inter c.issuerDN = some spki) (hv : c.valid = true)
    (hkr : ∀ runs z, CarryAll (channelName chan) runs l → runs.getLast? = some z → ∀ a prev, MadeBy s z a prev → KnownIn (W a) (env.sha spki) c.serial ∧ RevokedIn .all (W a) (env.sha spki) c.serial)
    (hcov : ∀ runs, CarryAll (channelName chan) runs l → ∀ y ∈ runs, ∀ a prev, MadeBy s y a prev → KnownIn (W a) (env.sha spki) c.serial → RevokedIn .all (W a) (env.sha spki) c.serial → Covers (cov a) c.scts) :
    clientQuery env.sha parse verifies (cardHas enrolls contains) (loaded.map Prod.snd) inter c = .revoked := by
  have hcards := clientCards_perm (C120_loaded_partial h hrecs hserve hnd hrem hno hup hload) hl
  subst hchan
  exact C82_revoked_partial dec card build contains enrolls he order W X cov env.sha parse verifies inter s h hgen (channelName .default) (channelName_plain .default) l hl hc _ hcards c spki hlk hv hkr hcov

/-- **C120, not Revoked (partial).** … and never for a certificate that no run of the chain found revoked, if the runs that cover it know it. Missing: `C64_remove_fails`. -/
theorem C120_not_revoked_partial (hchan : chan = .default) (c : ClientCert) (spki : Bytes) (hlk : lookupSpki parse verifies inter c.issuerDN = some spki)
    (hr : ∀ runs, CarryAll (channelName chan) runs l → ∀ y ∈ runs, ∀ a prev, MadeBy s y a prev → ¬RevokedIn .all (W a) (env.sha spki) c.serial)
    (hsure : ∀ runs, CarryAll (channelName chan) runs l → ∀ y ∈ runs, ∀ a prev, MadeBy s y a prev → Covers (cov a) c.scts → KnownIn (W a) (env.sha spki) c.serial) :
    clientQuery env.sha parse verifies (cardHas enrolls contains) (loaded.map Prod.snd) inter c ≠ .revoked := by
  have hcards := clientCards_perm (C120_loaded_partial h hrecs hserve hnd hrem hno hup hload) hl
  subst hchan
  exact C82_not_revoked dec card build contains enrolls he order W X cov env.sha parse verifies inter s h hgen (channelName .default) (channelName_plain .default) l hl hc _ hcards c spki hlk hr hsure

/-- **C120, the channel with the priority reasons (partial).** Missing: `C64_remove_fails`, `C74_known_elsewhere_fails`, `C97_reason_change_fails`. -/
theorem C120_priority_partial (hgp : ∀ y a prev, Finished s.bucket y → MadeBy s y a prev → GeneratesPriority dec card build contains order a (W a) (X a) (cov a)) (hchan : chan = .compat) (c : ClientCert) (spki : Bytes)
    (hlk : lookupSpki parse verifies inter c.issuerDN = some spki) (hv : c.valid = true) (hstable : ReasonStable W s (env.sha spki) c.serial)
    (hkr : ∀ runs z, CarryAll (channelName chan) runs l → runs.getLast? = some z → ∀ a prev, MadeBy s z a prev → KnownIn (W a) (env.sha spki) c.serial ∧ RevokedIn .priority (W a) (env.sha spki) c.serial)
    (hcov : ∀ runs, CarryAll (channelName chan) runs l → ∀ y ∈ runs, ∀ a prev, MadeBy s y a prev → KnownIn (W a) (env.sha spki) c.serial → RevokedIn .priority (W a) (env.sha spki) c.serial → Covers (cov a) c.scts) :
    clientQuery env.sha parse verifies (cardHas enrolls contains) (loaded.map Prod.snd) inter c = .revoked := by
  have hcards := clientCards_perm (C120_loaded_partial h hrecs hserve hnd hrem hno hup hload) hl
  subst hchan
  exact C97_revoked_partial dec card build contains enrolls he order W X cov env.sha parse verifies inter s h hgen hgp (channelName .compat) (channelName_plain .compat) l hl hc _ hcards c spki hlk hv hstable hkr hcov

end

/-! ### examples -/

theorem loadFilters_served {F : Type} {card : Bytes → Option F} {n : Text} {b : Bytes} {f : F} {rest : Files} {l : List (Text × F)} (h1 : (inDir n && isFilterFile n) = true) (h2 : card b = some f) (h3 : loadFilters card rest = some l) :
    loadFilters card ((n, b) :: rest) = some ((n, f) :: l) := by
  rw [loadFilters, if_pos h1]
  dsimp only
  rw [h2, h3]

/-- Contents are their own digests, except that of the issuer's key. -/
def exSrvSha (b : Bytes) : Bytes := if b = [5] then List.replicate 32 7 else b

/-- The server of the attachments. -/
def exSrvEnv (one two : Bytes) : UpdateEnv := ⟨fun _ => true, fun u => if u = "a".toList then some one else if u = "b".toList then some two else none, fun _ => none, exSrvSha⟩

theorem exSrv_fetch {one two c : Bytes} {u : Text} (h : (exSrvEnv one two).fetch u = some c) : c = one ∨ c = two := by
  change (if u = "a".toList then some one else if u = "b".toList then some two else none) = some c at h
  by_cases h1 : u = "a".toList
  · rw [if_pos h1] at h; exact Or.inl (Option.some.inj h).symm
  · rw [if_neg h1] at h
    by_cases h2 : u = "b".toList
    · rw [if_pos h2] at h; exact Or.inr (Option.some.inj h).symm
    · rw [if_neg h2] at h; cases h

/-- The directory has a filter of an old run, and the new filter cut short. -/
def exSrvFs : Files := [("20231231-0-default.filter".toList, [99]), ("20240101-0-default.filter".toList, [])]

theorem exSrv_sha {c bytes : Bytes} (hc : c = [99] ∨ c = [] ∨ c = [20] ∨ c = [31] ∨ c = [40] ∨ c = [51]) (h : exSrvSha c = exSrvSha bytes) : c = bytes := by
  have h1 : exSrvSha c = c := by rcases hc with rfl | rfl | rfl | rfl | rfl | rfl <;> decide
  rw [h1] at h
  unfold exSrvSha at h
  by_cases hb : bytes = [5]
  · rw [if_pos hb] at h
    rw [h] at hc
    exact absurd hc (by decide)
  · rw [if_neg hb] at h
    exact h

theorem exSrv_fs {n : Text} {c : Bytes} (h : assocGet exSrvFs n = some c) : c = [99] ∨ c = [] := by
  have hm := assocGet_mem h
  rcases List.mem_cons.1 hm with h | h
  · exact Or.inl (congrArg Prod.snd h)
  · exact Or.inr (congrArg Prod.snd (List.mem_singleton.1 h))

theorem exSrv_noForgery (b : List StoredObj) : NoForgery (exSrvEnv [20] [31]) b exSrvFs := by
  rintro c (⟨n, hn⟩ | ⟨u, hu⟩) p bytes _ hd
  · exact exSrv_sha (by rcases exSrv_fs hn with h | h <;> simp [h]) hd
  · exact exSrv_sha (by rcases exSrv_fetch hu with h | h <;> simp [h]) hd

theorem exSrv_noForgery_prio (b : List StoredObj) : NoForgery (exSrvEnv [40] [51]) b exSrvFs := by
  rintro c (⟨n, hn⟩ | ⟨u, hu⟩) p bytes _ hd
  · exact exSrv_sha (by rcases exSrv_fs hn with h | h <;> simp [h]) hd
  · exact exSrv_sha (by rcases exSrv_fetch hu with h | h <;> simp [h]) hd

/-- The two records of the default channel, as served. -/
def exSrvRaw : List RawFilterRec :=
  [⟨"14".toList, "20240101-0-default.filter".toList, "a".toList, false, some "default".toList⟩, ⟨"1f".toList, "20240102-0-default.filter.delta".toList, "b".toList, true, some "default".toList⟩]

theorem exSrv_served : ServedAll (exSrvEnv [20] [31]).sha exOpsState.bucket .default [exRec0, exRec1] exSrvRaw := by
  refine ⟨⟨rfl, rfl, rfl, ?_⟩, ⟨rfl, rfl, rfl, ?_⟩, trivial⟩
  · intro _ run hcar
    rw [attachment_unique (channelName_plain .default) (carries_attachment hcar) (carries_attachment exCarries0)]
    exact ⟨[20], exFile0, by decide +kernel⟩
  · intro _ run hcar
    rw [attachment_unique (channelName_plain .default) (carries_attachment hcar) (carries_attachment exCarries1)]
    exact ⟨[31], exFile1, by decide +kernel⟩

theorem exSrv_recs : exOpsState.recs = [exRec0, exRec1] := exState_recs

theorem exSrv_perm : [exRec0, exRec1].Perm exOpsState.recs := by rw [exSrv_recs]

/-- The directory after the update. -/
def exSrvFs' : Files := [("20240101-0-default.filter".toList, [20]), ("20240102-0-default.filter.delta".toList, [31])]

theorem exSrv_update : updateDb (exSrvEnv [20] [31]) .default exSrvRaw exSrvFs = (true, exSrvFs') := by decide +kernel

def exSrvLoaded : List (Text × Card (List Bytes)) := [("20240101-0-default.filter".toList, ⟨(exOut 0).filter, exCov 0⟩), ("20240102-0-default.filter.delta".toList, ⟨(exOut 1).deltaFilter, exCov 0⟩)]

theorem exSrv_load : loadFilters exCard exSrvFs' = some exSrvLoaded :=
  loadFilters_served (by decide +kernel) exCard0 (loadFilters_served (by decide +kernel) exCard1 rfl)

/-- The query program has what was published. -/
example : ClientCardsIn exCard exOpsState.bucket "clubcard-all".toList "default".toList (recordsOf "default".toList exOpsState.recs) [⟨(exOut 0).filter, exCov 0⟩, ⟨(exOut 1).deltaFilter, exCov 0⟩] :=
  C120_loaded_partial exState_reach exSrv_perm exSrv_served (by decide +kernel) (fun _ => rfl) (exSrv_noForgery _) exSrv_update exSrv_load

theorem exSrv_names : ∀ w ∈ exSrvRaw, w.channel = some (channelName .default) ∧ ∃ c, (exSrvEnv [20] [31]).fetch w.location = some c ∧ hexDecode w.hash = some ((exSrvEnv [20] [31]).sha c) := by
  intro w hw
  rcases List.mem_cons.1 hw with rfl | hw
  · exact ⟨rfl, [20], by decide +kernel, by decide +kernel⟩
  · rw [List.mem_singleton.1 hw]
    exact ⟨rfl, [31], by decide +kernel, by decide +kernel⟩

example (fs : Files) : ∃ fs', updateDb (exSrvEnv [20] [31]) .default exSrvRaw fs = (true, fs') := by
  refine C120_succeeds .default _ exOpsState.bucket [exRec0, exRec1] exSrvRaw fs exSrv_served [exRec0, exRec1] ?_ exState_chain ?_ (fun w hw _ => (exSrv_names w hw).2) (fun _ => rfl)
  · have := exState_perm
    rw [exSrv_recs] at this
    exact this
  · intro w hw t ht
    rw [(exSrv_names w hw).1] at ht
    exact ⟨.default, (Option.some.inj ht).symm⟩

/-- The certificate revoked in the second run is answered Revoked after the update. -/
example : clientQuery exSrvSha (fun d => some ⟨[9], d⟩) (fun _ => true) (cardHas exEnrolls exContains) (exSrvLoaded.map Prod.snd) exInter (exClientCert 500 [2]) = .revoked := by
  refine C120_revoked_partial exDec exCard exBuild exContains exEnrolls exEnrolls_input (fun l => l) exInputOf (fun _ => []) (fun _ => exCov 0) (fun d => some ⟨[9], d⟩) (fun _ => true) exInter exOpsState exState_reach
    (fun y a prev _ => exState_generates y a prev) .default (exSrvEnv [20] [31]) [exRec0, exRec1] exSrvRaw exSrvFs exSrvFs' exSrv_perm exSrv_served (by decide +kernel) (fun _ => rfl) (exSrv_noForgery _) exSrv_update exSrvLoaded exSrv_load
    [exRec0, exRec1] exState_perm exState_chain rfl (exClientCert 500 [2]) [5] (by decide) rfl ?_ ?_
  · intro runs z hruns hz a prev hm
    rw [exState_runs runs hruns] at hz
    have hz : "20240102-0".toList = z := by simpa using hz
    subst hz
    rcases exMade hm with ⟨_, rfl⟩ | ⟨e, _⟩
    · rw [exInputOf_1]
      exact ⟨⟨_, List.mem_singleton.2 rfl, rfl, _, List.mem_singleton.2 rfl, by decide⟩, ⟨_, List.mem_singleton.2 rfl, rfl, _, rfl, 4, by decide, trivial⟩⟩
    · exact absurd e (by decide +kernel)
  · intro _ _ _ _ _ _ _ _ _
    exact ⟨([1], 500), List.mem_singleton.2 rfl, 0, 1000, if_pos rfl, by decide, by decide⟩

/-- The other one is not. -/
example : clientQuery exSrvSha (fun d => some ⟨[9], d⟩) (fun _ => true) (cardHas exEnrolls exContains) (exSrvLoaded.map Prod.snd) exInter (exClientCert 1500 [3]) ≠ .revoked :=
  C120_not_revoked_partial exDec exCard exBuild exContains exEnrolls exEnrolls_input (fun l => l) exInputOf (fun _ => []) (fun _ => exCov 0) (fun d => some ⟨[9], d⟩) (fun _ => true) exInter exOpsState exState_reach
    (fun y a prev _ => exState_generates y a prev) .default (exSrvEnv [20] [31]) [exRec0, exRec1] exSrvRaw exSrvFs exSrvFs' exSrv_perm exSrv_served (by decide +kernel) (fun _ => rfl) (exSrv_noForgery _) exSrv_update exSrvLoaded exSrv_load
    [exRec0, exRec1] exState_perm exState_chain rfl (exClientCert 1500 [3]) [5] (by decide) exState_unrevoked (fun _ _ _ _ _ _ _ h => absurd h exUncovered)

/-- The two records of the other channel, as served. -/
def exSrvRawPr : List RawFilterRec :=
  [⟨"28".toList, "20240101-0-compat.filter".toList, "a".toList, false, some "compat".toList⟩, ⟨"33".toList, "20240102-0-compat.filter.delta".toList, "b".toList, true, some "compat".toList⟩]

theorem exSrvPr_served : ServedAll (exSrvEnv [40] [51]).sha exPrState.bucket .compat [exPrRec0, exPrRec1] exSrvRawPr := by
  refine ⟨⟨rfl, rfl, rfl, ?_⟩, ⟨rfl, rfl, rfl, ?_⟩, trivial⟩
  · intro _ run hcar
    rw [attachment_unique (channelName_plain .compat) (carries_attachment hcar) (carries_attachment exPrCarries0)]
    exact ⟨[40], exPrFile0, by decide +kernel⟩
  · intro _ run hcar
    rw [attachment_unique (channelName_plain .compat) (carries_attachment hcar) (carries_attachment exPrCarries1)]
    exact ⟨[51], exPrFile1, by decide +kernel⟩

theorem exSrvPr_perm : [exPrRec0, exPrRec1].Perm exPrState.recs := by
  have : exPrState.recs = [exPrRec0, exPrRec1] := by decide +kernel
  rw [this]

def exSrvFsPr : Files := [("20240101-0-compat.filter".toList, [40]), ("20240102-0-compat.filter.delta".toList, [51])]

theorem exSrvPr_update : updateDb (exSrvEnv [40] [51]) .compat exSrvRawPr exSrvFs = (true, exSrvFsPr) := by decide +kernel

def exSrvLoadedPr : List (Text × Card (List Bytes)) := [("20240101-0-compat.filter".toList, ⟨(exPrOut 0).filter, exCov 0⟩), ("20240102-0-compat.filter.delta".toList, ⟨(exPrOut 1).deltaFilter, exCov 0⟩)]

theorem exSrvPr_load : loadFilters exPrCard exSrvFsPr = some exSrvLoadedPr :=
  loadFilters_served (by decide +kernel) exPrCard0 (loadFilters_served (by decide +kernel) exPrCard1 rfl)

/-- The certificate revoked for key compromise in the second run is answered Revoked in the channel with the priority reasons. -/
example : clientQuery exSrvSha (fun d => some ⟨[9], d⟩) (fun _ => true) (cardHas exEnrolls exContains) (exSrvLoadedPr.map Prod.snd) exInter (exClientCert 500 [2]) = .revoked := by
  refine C120_priority_partial exPrDec exPrCard exBuild exContains exEnrolls exEnrolls_input (fun l => l) exPrInput (fun _ => []) (fun _ => exCov 0) (fun d => some ⟨[9], d⟩) (fun _ => true) exInter exPrState exPrState_reach
    (fun y a prev _ => exPrState_generates y a prev) .compat (exSrvEnv [40] [51]) [exPrRec0, exPrRec1] exSrvRawPr exSrvFs exSrvFsPr exSrvPr_perm exSrvPr_served (by decide +kernel) (fun _ => rfl) (exSrv_noForgery_prio _) exSrvPr_update exSrvLoadedPr
    exSrvPr_load [exPrRec0, exPrRec1] exPrState_perm exPrState_chain (fun y a prev _ => exPrState_priority y a prev) rfl (exClientCert 500 [2]) [5] (by decide) rfl ?_ (exPr_last [2] (Or.inr rfl)) (fun _ _ _ _ _ _ _ _ _ => exPr_covered [2])
  intro x y _ a prev a' prev' hm _ _ hr _
  rcases exPrMade hm with ⟨_, rfl⟩ | ⟨_, rfl⟩
  · rw [exPrInput_1]
    exact ⟨_, List.mem_singleton.2 rfl, rfl, _, rfl, 1, by decide, List.mem_cons_self⟩
  · rw [exPrInput_0] at hr
    obtain ⟨i, hi, _, l, hl, c, hc, _⟩ := hr
    rw [List.mem_singleton.1 hi] at hl
    cases hl
    revert hc
    simp [exClientCert]

end Verif.Props
