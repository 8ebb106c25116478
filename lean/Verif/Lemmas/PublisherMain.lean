import Verif.Spec.PublisherMain
import Verif.Props.Signing
/-!
Lemmas about one execution of the publisher: after a publication that succeeded there is nothing left to do.
-/
namespace Verif.Props
open Verif.Spec

/-! ### sorting by name -/

def NameLe (a b : KRec) : Prop := textLt b.name a.name = false

theorem nameLe_of_lt {a b : KRec} (h : textLt a.name b.name = true) : NameLe a b := by
  unfold NameLe
  cases hb : textLt b.name a.name with
  | false => rfl
  | true =>
    have := textLt_trans _ _ _ h hb
    rw [textLt_irrefl] at this
    cases this

theorem nameLe_trans {a b c : KRec} (h1 : NameLe a b) (h2 : NameLe b c) : NameLe a c := by
  unfold NameLe at *
  cases hc : textLt c.name a.name with
  | false => rfl
  | true =>
    cases hab : textLt a.name b.name with
    | true =>
      have := textLt_trans _ _ _ hc hab
      rw [this] at h2
      cases h2
    | false =>
      have := textLt_total _ _ hab h1
      rw [← this, hc] at h2
      cases h2

theorem insertRec_sorted (r : KRec) (l : List KRec) (h : l.Pairwise NameLe) : (insertRec r l).Pairwise NameLe := by
  induction l with
  | nil => simp [insertRec]
  | cons x rest ih =>
    obtain ⟨h1, h2⟩ := List.pairwise_cons.1 h
    unfold insertRec
    by_cases hx : textLt x.name r.name = true
    · rw [if_pos hx, List.pairwise_cons]
      refine ⟨?_, ih h2⟩
      intro y hy
      rcases List.mem_cons.1 ((insertRec_perm r rest).mem_iff.1 hy) with rfl | hy
      · exact nameLe_of_lt hx
      · exact h1 y hy
    · rw [if_neg hx, List.pairwise_cons]
      refine ⟨?_, h⟩
      intro y hy
      have hrx : NameLe r x := by unfold NameLe; simpa using hx
      rcases List.mem_cons.1 hy with rfl | hy
      · exact hrx
      · exact nameLe_trans hrx (h1 y hy)

theorem sortRecs_sorted (l : List KRec) : (sortRecs l).Pairwise NameLe := by
  induction l with
  | nil => exact List.Pairwise.nil
  | cons r rest ih => exact insertRec_sorted r _ ih

theorem sortRecs_last (l : List KRec) (q : KRec) (h : (sortRecs l).getLast? = some q) (x : KRec) (hx : x ∈ l) : NameLe x q := by
  have hx' : x ∈ sortRecs l := (sortRecs_perm l).mem_iff.2 hx
  obtain ⟨ini, hini⟩ := List.getLast?_eq_some_iff.1 h
  have hs := sortRecs_sorted l
  rw [hini] at hs hx'
  rw [List.pairwise_append] at hs
  rcases List.mem_append.1 hx' with hx' | hx'
  · exact hs.2.2 x hx' q (by simp)
  · rw [List.mem_singleton.1 hx']
    exact textLt_irrefl _

/-! ### the next run finds nothing to do -/

theorem notAfter_pairLt {x y : Text} {a b : Nat × Nat} (h : NotAfter x y) (ha : parseRun x = some a) (hb : parseRun y = some b) : pairLt b a = false := by
  obtain ⟨a', b', h1, h2, h3⟩ := h
  rw [ha] at h1
  rw [hb] at h2
  cases h1
  cases h2
  cases hp : pairLt b a with
  | false => rfl
  | true => exact absurd (keyLt_iff.2 hp) h3

theorem keyLt_of_ne {db : RunDb} (hb : SoundBucket db) {newest x : Text} {k l : Nat × Nat} (hn : db.ids.getLast? = some newest) (hx : x ∈ db.ids) (hne : x ≠ newest) (hk : parseRun x = some k)
    (hl : parseRun newest = some l) : KeyLt k l := by
  have h := notAfter_pairLt (hb.last newest hn x hx) hk hl
  have hkl : k ≠ l := by
    intro e
    subst e
    exact hne (hb.distinct.2 x hx newest (List.mem_of_getLast? hn) k hk hl)
  obtain ⟨k1, k2⟩ := k
  obtain ⟨l1, l2⟩ := l
  have h' : ¬KeyLt (l1, l2) (k1, k2) := by
    intro e
    rw [keyLt_iff, h] at e
    cases e
  unfold KeyLt at *
  dsimp only at *
  have : ¬(k1 = l1 ∧ k2 = l2) := fun e => hkl (by rw [e.1, e.2])
  omega

/-- The channel with its newest run in it, its names in order and its oldest run by text young enough: nothing is to be published. -/
theorem settled_core (db : RunDb) (nm : Nat → Bool → Text) (slug newest : Text) (maxAge tn : Nat) (st : List KRec) (hb : SoundBucket db) (hnm : NamesFollow nm) (hn : db.ids.getLast? = some newest) (htn : db.time newest = some tn)
    (hv : verifyRecords (recordsOf slug st) = true) (hin : ∀ r ∈ recordsOf slug st, ∃ x ∈ db.ids, recordRun r = some x) (hnew : ∃ r ∈ recordsOf slug st, recordRun r = some newest) (hnamed : NamedAfter nm db slug st)
    (hage : ∀ r ∈ recordsOf slug st, ∀ m, recordRun r = some m → (∀ s ∈ recordsOf slug st, ∀ x, recordRun s = some x → textLt x m = false) → ∃ t, db.time m = some t ∧ tn < t + maxAge) :
    determinePublish (sortRecs (recordsOf slug st)) db maxAge = some (.deltas []) := by
  obtain ⟨rn, hrn, hrnr⟩ := hnew
  have hp := sortRecs_perm (recordsOf slug st)
  have hne : sortRecs (recordsOf slug st) ≠ [] := by
    intro e
    have := hp.mem_iff.2 hrn
    rw [e] at this
    cases this
  obtain ⟨kn, hkn⟩ := hb.parse newest (List.mem_of_getLast? hn)
  obtain ⟨q, hq⟩ : ∃ q, (sortRecs (recordsOf slug st)).getLast? = some q := ⟨_, List.getLast?_eq_some_getLast hne⟩
  have hqm : q ∈ recordsOf slug st := hp.mem_iff.1 (List.mem_of_getLast? hq)
  obtain ⟨xq, hxq, hqr⟩ := hin q hqm
  have hqn : xq = newest := by
    by_cases hx : xq = newest
    · exact hx
    · exfalso
      obtain ⟨kq, hkq⟩ := hb.parse xq hxq
      have hlt := keyLt_of_ne hb hn hxq hx hkq hkn
      obtain ⟨tq, htq⟩ := (hb.complete xq hxq).2.2
      have htl := hb.times xq hxq newest (List.mem_of_getLast? hn) kq kn tq tn hkq hkn hlt htq htn
      obtain ⟨f1, e1⟩ := hnamed q hqm xq tq hqr htq
      obtain ⟨f2, e2⟩ := hnamed rn hrn newest tn hrnr htn
      have h1 := hnm tq tn f1 f2 htl (hb.years newest (List.mem_of_getLast? hn) tn htn)
      have h2 := sortRecs_last _ q hq rn hrn
      unfold NameLe at h2
      rw [e1, e2, h1] at h2
      cases h2
  subst hqn
  obtain ⟨rs, hrs⟩ := optMap_of recordRun (sortRecs (recordsOf slug st)) (fun r hr => by obtain ⟨x, _, hx⟩ := hin r (hp.mem_iff.1 hr); exact ⟨x, hx⟩)
  obtain ⟨_, o2, o3, o4⟩ := optMap_some recordRun _ hrs
  obtain ⟨o, n, hon⟩ := splitRuns_of kn db.ids hb.parse
  obtain ⟨s1, s2, s3, _⟩ := splitRuns_some kn db.ids hon
  have hnnil : n = [] := by
    cases hn' : n with
    | nil => rfl
    | cons y ys =>
      exfalso
      obtain ⟨hy, k, hk, hlt⟩ := (s2 y).1 (by rw [hn']; simp)
      rw [notAfter_pairLt (hb.last _ hn y hy) hk hkn] at hlt
      cases hlt
  have hrsne : rs ≠ [] := by
    intro e
    rw [e, hq] at o4
    simp [hqr] at o4
  obtain ⟨m, hm⟩ := minText_some hrsne
  obtain ⟨m1, m2⟩ := minText_mem rs hm
  obtain ⟨r, hr, hrm⟩ := o3 m m1
  obtain ⟨t, ht, hlt⟩ := hage r (hp.mem_iff.1 hr) m hrm (fun s hs x hx => by
    obtain ⟨y, hy, hy'⟩ := o2 s (hp.mem_iff.2 hs)
    rw [hx] at hy'
    cases hy'
    exact m2 x hy)
  unfold determinePublish
  rw [hn]
  dsimp only
  rw [if_neg hne, if_neg (by rw [verifyRecords_perm hp, hv]; simp), hrs]
  dsimp only
  rw [o4, hq]
  simp only [Option.bind_some]
  rw [hqr]
  simp only [Option.bind_some]
  rw [hkn]
  dsimp only
  rw [hon]
  dsimp only
  have hall : rs.all (fun r => o.contains r) = true := by
    rw [List.all_eq_true]
    intro y hy
    obtain ⟨p, hp', hpy⟩ := o3 y hy
    obtain ⟨z, hz1, hz2⟩ := hin p (hp.mem_iff.1 hp')
    rw [hpy] at hz2
    cases hz2
    obtain ⟨k, hk⟩ := hb.parse y hz1
    simpa using (s3 y).2 ⟨hz1, k, hk, notAfter_pairLt (hb.last _ hn y hz1) hk hkn⟩
  rw [if_pos hall, hnnil]
  have hvr : verifyRuns db [] = some (some []) := rfl
  rw [hvr]
  dsimp only
  rw [hm]
  simp only [Option.bind_some]
  rw [ht, htn]
  dsimp only
  rw [if_neg (by omega)]

theorem deltasOf_run {nm : Nat → Bool → Text} {time : Text → Option Nat} {slug : Text} (runs : List Text) : ∀ {prev : Text} {recs : List KRec}, DeltasOf nm time slug prev runs recs →
    (∀ r ∈ recs, ∃ run ∈ runs, r.attachment = some (run ++ '-' :: slug ++ ".filter.delta".toList) ∧ ∃ t, time run = some t ∧ r.name = nm t false) ∧
    (∀ run ∈ runs, ∃ r ∈ recs, r.attachment = some (run ++ '-' :: slug ++ ".filter.delta".toList)) := by
  induction runs with
  | nil =>
    intro prev recs h
    cases recs with
    | nil => exact ⟨(fun r hr => by cases hr), (fun r hr => by cases hr)⟩
    | cons r rest => exact h.elim
  | cons run rest ih =>
    intro prev recs h
    cases recs with
    | nil => exact h.elim
    | cons r recs =>
      obtain ⟨_, _, _, h4, h5, i, _, h7⟩ := h
      obtain ⟨i1, i2⟩ := ih h7
      constructor
      · intro x hx
        rcases List.mem_cons.1 hx with rfl | hx
        · exact ⟨run, by simp, h4, h5⟩
        · obtain ⟨y, hy, hy'⟩ := i1 x hx
          exact ⟨y, by simp [hy], hy'⟩
      · intro x hx
        rcases List.mem_cons.1 hx with rfl | hx
        · exact ⟨r, by simp, h4⟩
        · obtain ⟨y, hy, hy'⟩ := i2 x hx
          exact ⟨y, by simp [hy], hy'⟩

/-- After a publication that succeeded: the newest run is in the channel, the names are those of the runs, and nothing is to be published. -/
theorem settled (env : PubEnv) (db : RunDb) (slug newest : Text) (maxAge : Nat) (st st' : List KRec) (hs : ∀ c ∈ slug, c ≠ '-') (hf : FreshIds env.freshId) (ht : Tidy slug st) (hb : SoundBucket db)
    (hn : db.ids.getLast? = some newest) (hp : publishCrlite env db slug maxAge false st = (true, st')) :
    (∃ r ∈ recordsOf slug st', attachmentOf slug newest r) ∧ (NamedAfter env.nameOf db slug st → NamedAfter env.nameOf db slug st') ∧
    (NamesFollow env.nameOf → NamedAfter env.nameOf db slug st → 0 < maxAge → determinePublish (sortRecs (recordsOf slug st')) db maxAge = some (.deltas [])) := by
  have hnm : newest ∈ db.ids := List.mem_of_getLast? hn
  obtain ⟨hready, _, tn, htn⟩ := hb.complete newest hnm
  obtain ⟨kn, hkn⟩ := hb.parse newest hnm
  obtain ⟨hv', _⟩ := C67_accepted_after env db slug maxAge newest st st' hs hf ht hn hready hp
  unfold publishCrlite at hp
  dsimp only at hp
  rw [hn] at hp
  dsimp only at hp
  rw [if_pos hready] at hp
  have heq : sortRecs (st.filter (ofChannel slug)) = sortRecs (recordsOf slug st) := rfl
  rw [heq] at hp
  cases hdet : determinePublish (sortRecs (recordsOf slug st)) db maxAge with
  | none => rw [hdet] at hp; cases hp
  | some task =>
    rw [hdet] at hp
    dsimp only at hp
    rw [if_neg (by simp)] at hp
    cases task with
    | full run =>
      have hrun := C68_full_newest _ _ _ _ hdet
      rw [hn] at hrun
      cases hrun
      obtain ⟨r, t, h1, h2, h3, h4, h5, h6, h7, h8⟩ := C67_full_replaces env db slug newest _ st st' hp
      rw [htn] at h6
      cases h6
      have hatt : attachmentOf slug newest r := Or.inl h3
      have hrr := attachment_run hs hatt
      have hnamed : NamedAfter env.nameOf db slug st' := by
        intro q hq x t hx htx
        rw [h1, List.mem_singleton] at hq
        subst hq
        rw [hrr] at hx
        cases hx
        rw [htn] at htx
        cases htx
        exact ⟨true, h7⟩
      refine ⟨⟨r, by rw [h1]; simp, hatt⟩, fun _ => hnamed, ?_⟩
      intro hnf _ hpos
      refine settled_core db env.nameOf slug newest maxAge tn st' hb hnf hn htn hv' ?_ ⟨r, by rw [h1]; simp, hrr⟩ hnamed ?_
      · intro q hq
        rw [h1, List.mem_singleton] at hq
        subst hq
        exact ⟨newest, hnm, hrr⟩
      · intro q hq m hm _
        rw [h1, List.mem_singleton] at hq
        subst hq
        rw [hrr] at hm
        cases hm
        exact ⟨tn, htn, by omega⟩
    | deltas runs =>
      obtain ⟨hne, hv, last, tip, cut, d1, d2, d3, d4, _, _, d7, d8⟩ := C68_deltas _ _ _ _ hdet
      have hperm := sortRecs_perm (recordsOf slug st)
      cases hruns : runs with
      | nil =>
        rw [hruns] at hp
        have hst : st' = st := by
          unfold runTask at hp
          dsimp only at hp
          rw [Prod.mk.injEq] at hp
          exact hp.2.symm
        subst hst
        refine ⟨?_, id, fun _ _ _ => by rw [hruns] at hdet; exact hdet⟩
        -- the newest run is not after the cut, which is a run of the bucket
        obtain ⟨x, hx, hxr, k, hk, hlt⟩ := d8 last (List.mem_of_getLast? d1)
        rw [d2] at hxr
        cases hxr
        rw [d3] at hk
        cases hk
        have hnew : tip = newest := by
          by_cases e : tip = newest
          · exact e
          · exfalso
            have := keyLt_of_ne hb hn hx e d3 hkn
            have hmem := (d4 newest).2 ⟨hnm, kn, hkn, keyLt_iff.1 this⟩
            rw [hruns] at hmem
            cases hmem
        subst hnew
        have hlm : last ∈ recordsOf slug st' := hperm.mem_iff.1 (List.mem_of_getLast? d1)
        refine ⟨last, hlm, ?_⟩
        cases hatt : last.attachment with
        | none => unfold recordRun at d2; rw [hatt] at d2; cases d2
        | some a =>
          obtain ⟨k, run, hrun1, hrun2⟩ := ht.1 last hlm (by rw [hatt]; rfl)
          have := attachment_run hs hrun1
          rw [d2] at this
          cases this
          exact hrun1
      | cons r0 rs0 =>
        obtain ⟨l, tipr, i, new, e1, e2, e3, e4, e5, e6, e7, e8, e9⟩ := C67_deltas_extend_chain env db slug maxAge runs st st' hs hf ht hdet hp
        obtain ⟨n1, n2⟩ := deltasOf_run runs e6
        have hrec : recordsOf slug st' = recordsOf slug st ++ new := by
          rw [e5, recordsOf_append, recordsOf_all (deltasOf_channel runs e6)]
        have hmemrun : newest ∈ runs := by
          rw [d4]
          refine ⟨hnm, kn, hkn, ?_⟩
          -- the first delta is later than the cut and not after the newest
          obtain ⟨hy, k, hk, hlt⟩ := (d4 r0).1 (by rw [hruns]; simp)
          have hle := notAfter_pairLt (hb.last newest hn r0 hy) hk hkn
          rw [← keyLt_iff] at hlt ⊢
          have hnk : ¬KeyLt kn k := by
            intro e
            rw [keyLt_iff, hle] at e
            cases e
          obtain ⟨c1, c2⟩ := cut
          obtain ⟨k1, k2⟩ := k
          obtain ⟨m1, m2⟩ := kn
          unfold KeyLt at *
          dsimp only at *
          omega
        have hnamed : NamedAfter env.nameOf db slug st → NamedAfter env.nameOf db slug st' := by
          intro hnd q hq x t hx htx
          rw [hrec] at hq
          rcases List.mem_append.1 hq with hq | hq
          · exact hnd q hq x t hx htx
          · obtain ⟨run, _, ha, t', ht', hname⟩ := n1 q hq
            have := attachment_run hs (Or.inr ha : attachmentOf slug run q)
            rw [hx] at this
            cases this
            rw [htx] at ht'
            cases ht'
            exact ⟨false, hname⟩
        obtain ⟨rn, hrn, hrna⟩ := n2 newest hmemrun
        have hatt : attachmentOf slug newest rn := Or.inr hrna
        refine ⟨⟨rn, by rw [hrec]; simp [hrn], hatt⟩, hnamed, ?_⟩
        intro hnf hnd _
        refine settled_core db env.nameOf slug newest maxAge tn st' hb hnf hn htn hv' ?_ ⟨rn, by rw [hrec]; simp [hrn], attachment_run hs hatt⟩ (hnamed hnd) ?_
        · intro q hq
          rw [hrec] at hq
          rcases List.mem_append.1 hq with hq | hq
          · obtain ⟨x, hx, hxr, _⟩ := d8 q (hperm.mem_iff.2 hq)
            exact ⟨x, hx, hxr⟩
          · obtain ⟨run, hrun, ha, _⟩ := n1 q hq
            exact ⟨run, ((d4 run).1 hrun).1, attachment_run hs (Or.inr ha : attachmentOf slug run q)⟩
        · intro q hq m hm hmin
          obtain ⟨rs, m0, e0, a1, a2, a3, a4⟩ := deltas_age _ db maxAge newest tn hn htn runs hdet
          obtain ⟨_, o2, o3, _⟩ := optMap_some recordRun _ a1
          obtain ⟨b1, b2⟩ := minText_mem rs a2
          obtain ⟨r0', hr0', hr0m⟩ := o3 m0 b1
          have hr0s : r0' ∈ recordsOf slug st := hperm.mem_iff.1 hr0'
          rw [hrec] at hq
          rcases List.mem_append.1 hq with hq | hq
          · obtain ⟨y, hy, hy'⟩ := o2 q (hperm.mem_iff.2 hq)
            rw [hm] at hy'
            cases hy'
            have h1 := b2 m hy
            have h2 := hmin r0' (by rw [hrec]; simp [hr0s]) m0 hr0m
            have := textLt_total _ _ h1 h2
            subst this
            exact ⟨e0, a3, a4⟩
          · obtain ⟨run, hrun, ha, t, htr, _⟩ := n1 q hq
            have := attachment_run hs (Or.inr ha : attachmentOf slug run q)
            rw [hm] at this
            cases this
            obtain ⟨hmi, km, hkm, hlt⟩ := (d4 m).1 hrun
            obtain ⟨x, hx, hxr, k0, hk0, hle⟩ := d8 r0' hr0'
            rw [hr0m] at hxr
            cases hxr
            have hlt0 : KeyLt k0 km := by
              rw [← keyLt_iff] at hlt
              have hnk : ¬KeyLt cut k0 := by
                intro e
                rw [keyLt_iff, hle] at e
                cases e
              obtain ⟨c1, c2⟩ := cut
              obtain ⟨k1, k2⟩ := k0
              obtain ⟨m1, m2⟩ := km
              unfold KeyLt at *
              dsimp only at *
              omega
            have := hb.times m0 hx m hmi k0 km e0 t hk0 hkm hlt0 a3 htr
            exact ⟨t, htr, by omega⟩

theorem clear_none (env : PubEnv) (slug : Text) (incr : Bool) (l : List KRec) (st : List KRec) (h : recordsOf slug l = []) : clearLoop env slug incr l st = (true, st) := by
  induction l with
  | nil => rfl
  | cons r rest ih =>
    have hr : ofChannel slug r = false := by
      cases hc : ofChannel slug r with
      | false => rfl
      | true =>
        have : r ∈ recordsOf slug (r :: rest) := List.mem_filter.2 ⟨by simp, hc⟩
        rw [h] at this
        cases this
    have hrest : recordsOf slug rest = [] := by
      unfold recordsOf at h ⊢
      rw [List.filter_eq_nil_iff] at h ⊢
      exact fun x hx => h x (by simp [hx])
    unfold clearLoop
    rw [if_neg (by rw [hr]; simp)]
    exact ih hrest

/-! ### logs -/

theorem addLogs_none (env : CtEnv) (known : List CtRec) (l : List UpLog) (st : List CtRec) (h : ∀ u ∈ l, ∃ k ∈ known, k.logID = u.logID) : addLogs env known l st = st := by
  induction l with
  | nil => rfl
  | cons u rest ih =>
    unfold addLogs
    have : known.any (fun k => decide (k.logID = u.logID)) = true := by
      obtain ⟨k, hk, e⟩ := h u (by simp)
      exact List.any_eq_true.2 ⟨k, hk, decide_eq_true e⟩
    rw [if_pos this]
    exact ih (fun v hv => h v (by simp [hv]))

theorem deleteLogs_none (env : CtEnv) (up : List UpLog) (l : List CtRec) (st : List CtRec) (h : ∀ k ∈ l, ∃ u ∈ up, k.logID = u.logID) : deleteLogs env up l st = st := by
  induction l with
  | nil => rfl
  | cons k rest ih =>
    unfold deleteLogs
    have : up.any (fun u => decide (u.logID = k.logID)) = true := by
      obtain ⟨u, hu, e⟩ := h k (by simp)
      exact List.any_eq_true.2 ⟨u, hu, decide_eq_true e.symm⟩
    rw [if_pos this]
    exact ih (fun v hv => h v (by simp [hv]))

theorem updateLogs_none (env : CtEnv) (up : List UpLog) (noop : Bool) (l : List CtRec) (st : List CtRec) (h : ∀ k ∈ l, ∀ u ∈ up, u.logID = k.logID → k.info = some u.info) : (updateLogs env up noop l st).2 = st := by
  induction l with
  | nil => rfl
  | cons k rest ih =>
    have hrest := ih (fun v hv => h v (by simp [hv]))
    unfold updateLogs
    cases hu : up.find? (fun u => decide (u.logID = k.logID)) with
    | none => exact hrest
    | some u =>
      dsimp only
      cases k.enrolled with
      | none => rfl
      | some e =>
        dsimp only
        rw [if_pos (h k (by simp) u (List.mem_of_find?_eq_some hu) (by simpa using List.find?_some hu))]
        exact hrest

theorem logs_settled (env : CtEnv) (ops : List LogOperator) (st : List CtRec) (h : SameLogs ops st) : (publishLogs env ops false st).2 = st := by
  rcases publishLogs_cases env ops false st with h' | ⟨⟨h1, h2, h3⟩, h'⟩
  · rw [h']
  · rw [h', if_neg (by simp), addLogs_none env st _ st, deleteLogs_none env _ st st h.2, updateLogs_none]
    · intro k hk u hu e
      obtain ⟨r, hr, hr1, hr2⟩ := h.1 u hu
      have : r = k := nodup_map_eq CtRec.logID h2 hr hk (hr1.trans e)
      rw [← this, hr2]
    · intro u hu
      obtain ⟨r, hr, hr1, _⟩ := h.1 u hu
      exact ⟨r, hr, hr1⟩

/-! ### intermediates -/

theorem loadRemote_settled (f : Text → Bool) (st : List InterRec) : ∀ good : List InterRec, (∀ r ∈ st, r.entry.isSome = true) → ((good ++ st).map InterRec.entry).Nodup →
    loadRemote f st good [] = none ∨ loadRemote f st good [] = some (good ++ st, []) := by
  induction st with
  | nil => intro good _ _; right; simp [loadRemote]
  | cons x rest ih =>
    intro good h1 h2
    unfold loadRemote
    by_cases hf : f x.id = true
    · rw [if_pos hf]
      obtain ⟨i, hi⟩ := Option.isSome_iff_exists.1 (h1 x (by simp))
      rw [hi]
      dsimp only
      have hno : ¬ good.any (fun g => decide (g.entry = some i)) = true := by
        intro h
        obtain ⟨g, hg, he⟩ := List.any_eq_true.1 h
        rw [List.map_append, List.nodup_append] at h2
        exact h2.2.2 g.entry (List.mem_map.2 ⟨g, hg, rfl⟩) x.entry (List.mem_map.2 ⟨x, by simp, rfl⟩) ((of_decide_eq_true he).trans hi.symm)
      rw [if_neg hno]
      rcases ih (good ++ [x]) (fun r hr => h1 r (by simp [hr])) (by simpa using h2) with h | h
      · left; exact h
      · right; rw [h]; simp
    · rw [if_neg hf]; exact Or.inl rfl

theorem loadLocal_mem (l : List (Option Inter)) : ∀ (acc : List Inter) (i : Inter), i ∈ loadLocal l acc ↔ i ∈ acc ∨ some i ∈ l := by
  induction l with
  | nil => intro acc i; simp [loadLocal]
  | cons o rest ih =>
    intro acc i
    cases o with
    | none => unfold loadLocal; rw [ih]; simp
    | some j =>
      unfold loadLocal
      by_cases h : acc.contains j = true
      · rw [if_pos h, ih]
        have hj : j ∈ acc := by simpa using h
        constructor
        · rintro (h | h)
          · exact Or.inl h
          · exact Or.inr (by simp [h])
        · rintro (h | h)
          · exact Or.inl h
          · rcases List.mem_cons.1 h with e | h
            · cases e; exact Or.inl hj
            · exact Or.inr h
      · rw [if_neg h, ih]
        simp only [List.mem_append, List.mem_cons, List.not_mem_nil, or_false, Option.some.injEq]
        constructor
        · rintro ((h | h) | h)
          · exact Or.inl h
          · exact Or.inr (Or.inl h)
          · exact Or.inr (Or.inr h)
        · rintro (h | h | h)
          · exact Or.inl (Or.inl h)
          · exact Or.inl (Or.inr h)
          · exact Or.inr h

theorem same_holds {entries : List (Option Inter)} {st : List InterRec} (h : SameInters entries st) : (loadLocal entries []).all (fun i => holdsInter st i) = true := by
  rw [List.all_eq_true]
  intro i hi
  rw [loadLocal_mem] at hi
  rcases hi with hi | hi
  · cases hi
  · obtain ⟨r, hr, e⟩ := h.2.1 i hi
    exact List.any_eq_true.2 ⟨r, hr, decide_eq_true e⟩

theorem same_local {entries : List (Option Inter)} {st : List InterRec} (h : SameInters entries st) (r : InterRec) (hr : r ∈ st) : (loadLocal entries []).any (fun i => decide (r.entry = some i)) = true := by
  obtain ⟨i, e, hi⟩ := h.1 r hr
  exact List.any_eq_true.2 ⟨i, (loadLocal_mem _ _ _).2 (Or.inr hi), decide_eq_true e⟩

theorem inters_settled (env : InterEnv) (entries : List (Option Inter)) (st : List InterRec) (hint : ∀ s, env.interfere s = s) (h : SameInters entries st) :
    (publishInters env entries false st).2 = st ∧ interTodo env entries st = false := by
  have hsome : ∀ r ∈ st, r.entry.isSome = true := fun r hr => by obtain ⟨i, e, _⟩ := h.1 r hr; rw [e]; rfl
  have hall : st.all (fun r => (loadLocal entries []).any (fun i => decide (r.entry = some i))) = true := List.all_eq_true.2 (fun r hr => same_local h r hr)
  unfold publishInters interTodo
  dsimp only
  rcases loadRemote_settled env.fetchOk1 st [] hsome (by simpa using h.2.2) with h1 | h1
  · rw [h1]; exact ⟨rfl, rfl⟩
  · rw [h1]
    dsimp only
    rw [List.nil_append, if_neg (by simp)]
    refine ⟨?_, by rw [same_holds h, hall]; rfl⟩
    have hd : st.filter (fun r => !((loadLocal entries []).any (fun i => decide (r.entry = some i)))) = [] := by
      rw [List.filter_eq_nil_iff]
      intro r hr
      rw [same_local h r hr]
      simp
    have ha : (loadLocal entries []).filter (fun i => !(holdsInter st i)) = [] := by
      rw [List.filter_eq_nil_iff]
      intro i hi
      rw [List.all_eq_true.1 (same_holds h) i hi]
      simp
    rw [hd, ha]
    have e1 : deleteRecs env [] st = st := rfl
    have e2 : addRecs env [] st = (true, st) := rfl
    rw [e1, e1, e2]
    dsimp only
    rw [hint]
    cases loadRemote env.fetchOk2 st [] [] with
    | none => rfl
    | some gb =>
      obtain ⟨g, b⟩ := gb
      dsimp only
      split <;> rfl

/-! ### collections -/

theorem put_content {α : Type} [DecidableEq α] (t : Bool) (x : α) (c : Coll α) : (c.put t x).content = x := by
  unfold Coll.put
  split
  · rfl
  · rename_i h
    simp only [Bool.or_eq_true, decide_eq_true_eq, not_or, Decidable.not_not] at h
    exact h.2.symm

theorem put_same {α : Type} [DecidableEq α] (c : Coll α) : c.put false c.content = c := by
  unfold Coll.put
  rw [if_neg (by simp)]

theorem askReview_content {α : Type} (c : Coll α) (v : CollSeen) : (c.askReview v).content = c.content := by
  unfold Coll.askReview
  split
  · split <;> rfl
  · rfl

theorem requestReview_content {α : Type} (ok : Bool) (c : Coll α) : (requestReview ok c).2.content = c.content := by
  unfold requestReview
  split
  · exact askReview_content c _
  · rfl

theorem requestReview_status {α : Type} (ok : Bool) (c : Coll α) (h : (requestReview ok c).1 = true) : (requestReview ok c).2.status ≠ .workInProgress := by
  unfold requestReview at h ⊢
  by_cases hok : ok = true
  · rw [if_pos hok]
    unfold Coll.askReview Coll.look
    dsimp only
    by_cases hs : c.status = .workInProgress
    · rw [if_pos hs, if_pos rfl]; simp
    · rw [if_neg hs]; exact hs
  · rw [if_neg hok] at h; cases h

theorem requestReview_same {α : Type} (ok : Bool) (c : Coll α) (h : c.status ≠ .workInProgress) : (requestReview ok c).2 = c := by
  unfold requestReview
  split
  · unfold Coll.askReview Coll.look
    dsimp only
    rw [if_neg h]
  · rfl

/-! ### the calls -/

theorem tidy_congr {slug : Text} {a b : List KRec} (h : recordsOf slug a = recordsOf slug b) (ht : Tidy slug a) : Tidy slug b := by
  unfold Tidy at *
  rw [← h]
  exact ht

theorem named_congr {nm : Nat → Bool → Text} {db : RunDb} {slug : Text} {a b : List KRec} (h : recordsOf slug a = recordsOf slug b) (ht : NamedAfter nm db slug a) : NamedAfter nm db slug b := by
  unfold NamedAfter at *
  rw [← h]
  exact ht

theorem crliteAsks_false {env : PubEnv} {db : RunDb} {slug : Text} {maxAge : Nat} {st st' : List KRec} (hp : publishCrlite env db slug maxAge false st = (true, st')) (h : crliteAsks env db slug maxAge false st = false) : st' = st := by
  unfold crliteAsks at h
  rw [hp] at h
  unfold publishCrlite at hp
  dsimp only at hp
  cases hn : db.ids.getLast? with
  | none =>
    rw [hn] at hp
    rw [Prod.mk.injEq] at hp
    exact hp.2.symm
  | some newest =>
    rw [hn] at hp h
    dsimp only at hp h
    by_cases hr : db.ready newest = true
    · rw [if_pos hr] at hp
      rw [hr] at h
      simp only [Bool.not_false, Bool.and_true, Bool.true_and, decide_eq_false_iff_not, Decidable.not_not] at h
      rw [h] at hp
      dsimp only at hp
      rw [if_neg (by simp)] at hp
      unfold runTask at hp
      dsimp only at hp
      rw [Prod.mk.injEq] at hp
      exact hp.2.symm
    · rw [if_neg hr, Prod.mk.injEq] at hp
      exact hp.2.symm

/-- What `publish_crlite` leaves, with or without success. -/
theorem channelStage_content (e : PubWorld) (noop : Bool) (ch : Channel) (c : Coll (List KRec)) :
    (channelStage e noop ch c).2.content = c.content ∨ (channelStage e noop ch c).2.content = (publishCrlite (e.pub ch.slug) (e.db ch.slug) ch.slug ch.maxAge noop c.content).2 := by
  unfold channelStage
  by_cases hr : e.reads (.channel ch) = true
  · rw [if_pos hr]
    dsimp only
    right
    cases hp : publishCrlite (e.pub ch.slug) (e.db ch.slug) ch.slug ch.maxAge noop c.content with
    | mk b st =>
      cases b with
      | false => exact put_content _ _ _
      | true =>
        dsimp only
        split
        · rw [requestReview_content, put_content]
        · exact put_content _ _ _
  · rw [if_neg hr]; exact Or.inl rfl

theorem channelStage_ok (e : PubWorld) (noop : Bool) (ch : Channel) (c : Coll (List KRec)) (h : (channelStage e noop ch c).1 = true) :
    publishCrlite (e.pub ch.slug) (e.db ch.slug) ch.slug ch.maxAge noop c.content = (true, (channelStage e noop ch c).2.content) := by
  have hc := channelStage_content e noop ch c
  unfold channelStage at h hc ⊢
  by_cases hr : e.reads (.channel ch) = true
  · rw [if_pos hr] at h hc ⊢
    dsimp only at h hc ⊢
    cases hp : publishCrlite (e.pub ch.slug) (e.db ch.slug) ch.slug ch.maxAge noop c.content with
    | mk b st =>
      rw [hp] at h hc
      cases b with
      | false => cases h
      | true =>
        dsimp only
        split
        · rw [requestReview_content, put_content]
        · rw [put_content]
  · rw [if_neg hr] at h; cases h

theorem clearStage_shape (e : PubWorld) (ch : Channel) (c : Coll (List KRec)) : (clearStage e false ch c).2 = c ∨ (clearStage e false ch c).2 = c.put false (clearRun (e.pub ch.slug) ch.slug false c.content).1 := by
  unfold clearStage clearRun
  simp only [Bool.false_eq_true, if_false]
  by_cases hr : e.reads (.clear ch) = true
  · rw [if_pos hr]
    right
    cases h1 : clearLoop (e.pub ch.slug) ch.slug false c.content c.content with
    | mk b st1 => cases b <;> rfl
  · rw [if_neg hr]; exact Or.inl rfl

theorem clearStage_ok (e : PubWorld) (ch : Channel) (c : Coll (List KRec)) (h : (clearStage e false ch c).1 = true) :
    (clearStage e false ch c).2 = c.put false (clearRun (e.pub ch.slug) ch.slug false c.content).1 ∧ recordsOf ch.slug (clearStage e false ch c).2.content = [] := by
  unfold clearStage at h ⊢
  unfold clearRun
  simp only [Bool.false_eq_true, if_false] at h ⊢
  by_cases hr : e.reads (.clear ch) = true
  · rw [if_pos hr] at h ⊢
    cases h1 : clearLoop (e.pub ch.slug) ch.slug false c.content c.content with
    | mk b st1 =>
      rw [h1] at h
      cases b with
      | false => cases h
      | true =>
        dsimp only at h ⊢
        refine ⟨rfl, ?_⟩
        rw [put_content]
        cases h2 : clearLoop (e.pub ch.slug) ch.slug true st1 st1 with
        | mk b2 st2 =>
          rw [h2] at h
          dsimp only at h
          subst h
          unfold recordsOf
          rw [List.filter_eq_nil_iff]
          intro x hx hch
          have hx1 : x ∈ st1 := clear_sub _ _ _ st1 st1 x (by rw [h2]; exact hx)
          have hx0 : x ∈ c.content := clear_sub _ _ _ c.content c.content x (by rw [h1]; exact hx1)
          obtain ⟨b1, hb1, hc1⟩ := clear_ok _ _ _ _ _ _ h1 x hx0 hch
          obtain ⟨b2, hb2, hc2⟩ := clear_ok _ _ _ _ _ _ h2 x hx1 hch
          rw [hb1] at hb2
          cases hb2
          cases b1 with
          | false => exact hc1 rfl hx1
          | true => exact hc2 rfl hx
  · rw [if_neg hr] at h; cases h

/-- The channel of a call, if it is about one. -/
def callSlug : PubCall → Option Text
  | .channel ch => some ch.slug
  | .clear ch => some ch.slug
  | _ => none

/-- A call on the filters leaves them in order, and other channels alone. -/
theorem stage_filters (e : PubWorld) (g : PubCall) (slug : Text) (hg : callSlug g = some slug) (hf : ∀ t, FreshIds (e.pub t).freshId) (hb : ∀ ch, g = .channel ch → (∀ c ∈ ch.slug, c ≠ '-') ∧ SoundBucket (e.db ch.slug))
    (s : PubServer) (hs : FiltersSound s.filters.content) :
    FiltersSound (stageRun e false s g).2.filters.content ∧ (stageRun e false s g).2.logs = s.logs ∧ (stageRun e false s g).2.inters = s.inters ∧
      ∀ other, other ≠ slug → recordsOf other (stageRun e false s g).2.filters.content = recordsOf other s.filters.content := by
  cases g with
  | logs => cases hg
  | inters => cases hg
  | channel ch =>
    cases hg
    obtain ⟨b1, b2⟩ := hb ch rfl
    refine ⟨?_, rfl, rfl, ?_⟩
    · show FiltersSound (channelStage e false ch s.filters).2.content
      rcases channelStage_content e false ch s.filters with h | h
      · rw [h]; exact hs
      · rw [h]
        exact goodStep_content (s := ⟨e.pub ch.slug, e.db ch.slug, ch.slug, ch.maxAge, false⟩) ⟨b1, hf _, b2.distinct, b2.parse⟩ hs.1 hs.2
    · intro other ho
      show recordsOf other (channelStage e false ch s.filters).2.content = _
      rcases channelStage_content e false ch s.filters with h | h
      · rw [h]
      · rw [h]
        exact (C67_other_channels _ _ _ _ _ _ _ (hf _) ho hs.1).1
  | clear ch =>
    cases hg
    refine ⟨?_, rfl, rfl, ?_⟩
    · show FiltersSound (clearStage e false ch s.filters).2.content
      rcases clearStage_shape e ch s.filters with h | h
      · rw [h]; exact hs
      · rw [h, put_content]
        have hsub := (clearRun_sublist (e.pub ch.slug) ch.slug false s.filters.content).1
        exact ⟨hs.1.sublist (hsub.map _), fun c => tidy_sublist hsub (hs.2 c)⟩
    · intro other ho
      show recordsOf other (clearStage e false ch s.filters).2.content = _
      rcases clearStage_shape e ch s.filters with h | h
      · rw [h]
      · rw [h, put_content]
        exact clearRun_other _ _ _ _ _ ho hs.1

/-- What a call on the filters that succeeded has done, seen at the end of the execution. -/
def CallDone (e : PubWorld) (before after : List KRec) : PubCall → Prop
  | .channel ch => ∃ st st', recordsOf ch.slug st = recordsOf ch.slug before ∧ FiltersSound st ∧ publishCrlite (e.pub ch.slug) (e.db ch.slug) ch.slug ch.maxAge false st = (true, st') ∧ recordsOf ch.slug st' = recordsOf ch.slug after
  | .clear ch => recordsOf ch.slug after = []
  | _ => True

theorem runStages_cons (e : PubWorld) (noop : Bool) (g : PubCall) (rest : List PubCall) (s : PubServer) :
    runStages e noop (g :: rest) s = if (stageRun e noop s g).1 then runStages e noop rest (stageRun e noop s g).2 else (some g, (stageRun e noop s g).2) := by
  conv => lhs; unfold runStages
  cases h : stageRun e noop s g with
  | mk ok s1 => cases ok <;> rfl

/-- Going on with more calls. -/
def goOn (e : PubWorld) (noop : Bool) (b : List PubCall) (r : Option PubCall × PubServer) : Option PubCall × PubServer := if r.1.isNone then runStages e noop b r.2 else r

theorem runStages_append (e : PubWorld) (noop : Bool) (a b : List PubCall) : ∀ s, runStages e noop (a ++ b) s = goOn e noop b (runStages e noop a s) := by
  induction a with
  | nil => intro s; rfl
  | cons g rest ih =>
    intro s
    rw [List.cons_append, runStages_cons, runStages_cons]
    by_cases h : (stageRun e noop s g).1 = true
    · rw [if_pos h, if_pos h]; exact ih _
    · rw [if_neg h, if_neg h]; rfl

/-- All calls on the filters, as far as they got. -/
theorem run_filters (e : PubWorld) (hf : ∀ t, FreshIds (e.pub t).freshId) (calls : List PubCall) : ∀ s : PubServer, (calls.map callSlug).Nodup → (∀ g ∈ calls, (callSlug g).isSome = true) →
    (∀ ch, PubCall.channel ch ∈ calls → (∀ c ∈ ch.slug, c ≠ '-') ∧ SoundBucket (e.db ch.slug)) → FiltersSound s.filters.content →
    FiltersSound (runStages e false calls s).2.filters.content ∧ (runStages e false calls s).2.logs = s.logs ∧ (runStages e false calls s).2.inters = s.inters ∧
      (∀ other, (∀ g ∈ calls, callSlug g ≠ some other) → recordsOf other (runStages e false calls s).2.filters.content = recordsOf other s.filters.content) ∧
      ((runStages e false calls s).1 = none → ∀ g ∈ calls, CallDone e s.filters.content (runStages e false calls s).2.filters.content g) := by
  induction calls with
  | nil => intro s _ _ _ hs; exact ⟨hs, rfl, rfl, fun _ _ => rfl, fun _ g hg => by cases hg⟩
  | cons g rest ih =>
    intro s hn hg hb hs
    rw [List.map_cons, List.nodup_cons] at hn
    obtain ⟨slug, hslug⟩ := Option.isSome_iff_exists.1 (hg g (by simp))
    obtain ⟨t1, t2, t3, t4⟩ := stage_filters e g slug hslug hf (fun ch h => hb ch (by rw [h]; simp)) s hs
    have hdone : ∀ after, (stageRun e false s g).1 = true → recordsOf slug after = recordsOf slug (stageRun e false s g).2.filters.content → CallDone e s.filters.content after g := by
      intro after hok he
      cases g with
      | logs => trivial
      | inters => trivial
      | channel ch =>
        cases hslug
        exact ⟨s.filters.content, _, rfl, hs, channelStage_ok e false ch s.filters hok, he.symm⟩
      | clear ch =>
        cases hslug
        show recordsOf ch.slug after = []
        rw [he]
        exact (clearStage_ok e ch s.filters hok).2
    unfold runStages
    cases h : stageRun e false s g with
    | mk ok s1 =>
      rw [h] at t1 t2 t3 t4 hdone
      dsimp only at t1 t2 t3 t4 hdone
      cases ok with
      | false =>
        refine ⟨t1, t2, t3, ?_, fun hc => by cases hc⟩
        intro other ho
        exact t4 other (fun e => ho g (by simp) (by rw [hslug, e]))
      | true =>
        dsimp only
        obtain ⟨u1, u2, u3, u4, u5⟩ := ih s1 hn.2 (fun x hx => hg x (by simp [hx])) (fun ch hch => hb ch (by simp [hch])) t1
        have hself : recordsOf slug (runStages e false rest s1).2.filters.content = recordsOf slug s1.filters.content := by
          refine u4 slug (fun x hx hxs => hn.1 ?_)
          rw [hslug, ← hxs]
          exact List.mem_map.2 ⟨x, hx, rfl⟩
        refine ⟨u1, u2.trans t2, u3.trans t3, ?_, ?_⟩
        · intro other ho
          rw [u4 other (fun x hx => ho x (by simp [hx])), t4 other (fun e => ho g (by simp) (by rw [hslug, e]))]
        · intro hnone x hx
          rcases List.mem_cons.1 hx with rfl | hx
          · exact hdone _ rfl hself
          · have hd := u5 hnone x hx
            have hne : ∀ o, callSlug x = some o → o ≠ slug := by
              intro o ho e
              subst e
              exact hn.1 (by rw [hslug, ← ho]; exact List.mem_map.2 ⟨x, hx, rfl⟩)
            cases x with
            | logs => trivial
            | inters => trivial
            | clear ch => exact hd
            | channel ch =>
              obtain ⟨st, st', d1, d2, d3, d4⟩ := hd
              exact ⟨st, st', d1.trans (t4 ch.slug (hne _ rfl)), d2, d3, d4⟩

end Verif.Props
