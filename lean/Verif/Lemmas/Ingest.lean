import Verif.Spec.Ingest
import Verif.Props.Fetch
/-! Lemmas for the database thread and the whole of ct-fetch. -/
namespace Verif
open Verif.Spec Verif.Props

/-! ### served leaves -/

theorem takeEntry_handed (env : Env) (d d' : Download) (l : Leaf) (h : takeEntry env d l = some d') :
    ∀ x ∈ d'.handed, x ∈ d.handed ∨ x = l := by
  unfold takeEntry at h
  split at h
  · cases h; intro x hx; exact Or.inl hx
  · split at h
    · cases h
    · cases h
    · split at h
      · cases h
      · cases h
        intro x hx
        simp [advance, noteTs] at hx
        exact hx

theorem takeEntries_handed (env : Env) (ls : List Leaf) : ∀ d : Download,
    ∀ x ∈ (takeEntries env d ls).1.handed, x ∈ d.handed ∨ x ∈ ls := by
  induction ls with
  | nil => intro d x hx; exact Or.inl hx
  | cons l ls ih =>
    intro d x hx
    unfold takeEntries at hx
    split at hx
    · exact Or.inl hx
    · rename_i d' hd
      rcases ih d' x hx with h | h
      · rcases takeEntry_handed env d d' l hd x h with h | h
        · exact Or.inl h
        · exact Or.inr (by simp [h])
      · exact Or.inr (by simp [h])

theorem download_handed (env : Env) (last : Nat) (rs : List Resp) : ∀ d : Download,
    (∀ x ∈ (download env last d rs).1.handed, x ∈ d.handed ∨ x ∈ servedLeaves rs) ∧
    (∀ x ∈ servedLeaves (download env last d rs).2.2, x ∈ servedLeaves rs) := by
  induction rs with
  | nil => intro d; exact ⟨fun x hx => Or.inl hx, fun x hx => hx⟩
  | cons r rs ih =>
    intro d
    unfold download
    split
    · exact ⟨fun x hx => Or.inl hx, fun x hx => hx⟩
    · cases r with
      | tooMany => exact ih d
      | failed => exact ⟨fun x hx => Or.inl hx, fun x hx => hx⟩
      | entries ls =>
        have ht := takeEntries_handed env ls d
        dsimp only
        split
        · rename_i d' hd
          rw [hd] at ht
          refine ⟨fun x hx => ?_, fun x hx => ?_⟩
          · rcases (ih d').1 x hx with h | h
            · rcases ht x h with h | h
              · exact Or.inl h
              · exact Or.inr (by simp [servedLeaves, h])
            · exact Or.inr (by simp [servedLeaves, h])
          · simp [servedLeaves, (ih d').2 x hx]
        · rename_i d' hd
          rw [hd] at ht
          refine ⟨fun x hx => ?_, fun x hx => ?_⟩
          · rcases ht x hx with h | h
            · exact Or.inl h
            · exact Or.inr (by simp [servedLeaves, h])
          · simp [servedLeaves, hx]

theorem runSubtrees_served (env : Env) (now : Nat) (task : Task) (ts : List Subtree) : ∀ (s : WState) (rs : List Resp) (e : Ev),
    e ∈ runSubtrees env now task s ts rs → (∀ s, e ≠ .state s) →
    ∃ l ∈ servedLeaves rs, Ok env l ∧ ∃ pos, leafEvent env pos l = e := by
  induction ts with
  | nil => intro s rs e h; simp [runSubtrees] at h
  | cons t ts ih =>
    intro s rs e h hn
    have hs := download_handed env t.last rs (newDownload t)
    have leaf : ∀ d b rs', download env t.last (newDownload t) rs = (d, b, rs') → e ∈ leafEvents env t.first d.handed →
        ∃ l ∈ servedLeaves rs, Ok env l ∧ ∃ pos, leafEvent env pos l = e := by
      intro d b rs' hd hm
      obtain ⟨k, l, h1, h2⟩ := leafEvents_mem env _ _ _ hm
      have hi := (download_inv env t rs _ d b rs' (newDownload_inv env t) hd).1
      have hl := List.mem_of_getElem? h1
      rw [hd] at hs
      rcases hs.1 l hl with h | h
      · simp [newDownload] at h
      · exact ⟨l, h, hi.ok l hl, _, h2.symm⟩
    unfold runSubtrees at h
    split at h
    · rename_i d _ hd; exact leaf d _ _ hd h
    · rename_i d rs' hd
      split at h
      · split at h
        · exact leaf d _ _ hd h
        · rcases List.mem_append.1 h with h | h
          · exact leaf d _ _ hd h
          · rcases List.mem_cons.1 h with h | h
            · exact absurd h (hn _)
            · obtain ⟨l, hl, r⟩ := ih _ _ e h hn
              rw [hd] at hs
              exact ⟨l, hs.2 l hl, r⟩
      · exact leaf d _ _ hd h

theorem runWorker_served (env : Env) (batch now : Nat) (s : WState) (sth : Option TreeHead) (proof : Option (List Bytes))
    (rs : List Resp) (e : Ev) (h : e ∈ runWorker env batch now s sth proof rs) (hn : ∀ s, e ≠ .state s) :
    ∃ l ∈ servedLeaves rs, Ok env l ∧ ∃ pos, leafEvent env pos l = e := by
  rcases runWorker_cases env batch now s sth proof rs with h0 | ⟨h', e', hs, hr⟩ | ⟨h', r, p, ts, e', hj, hp, hts, hr⟩
  · rw [h0] at h; cases h
  · rw [hr] at h
    unfold runSleep at h
    split at h
    · split at h
      · cases h
      · simp at h; exact absurd h (hn _)
    · cases h
  · rw [hr] at h
    exact runSubtrees_served env now _ ts s rs e h hn

/-- An entry event of a tiled log comes from a yielded entry that was stored or skipped. -/
def TOk (keep : Bool) (es : List TEntry) (e : Ev) : Prop :=
  (∃ s, e = .state s) ∨ ∃ te ∈ es, ∃ pos, storeTiledEntry keep te ≠ .fatal ∧ storeTiledEntry keep te ≠ .retry ∧
    e = .entry pos te.input te.timestamp (outItem (storeTiledEntry keep te))

theorem readEntries_served (keep : Bool) (batch now : Nat) (es : List TEntry) : ∀ v : TVars,
    ∀ e ∈ (readEntries keep batch now v es).1, TOk keep es e := by
  induction es with
  | nil => intro v e h; simp [readEntries] at h
  | cons te es ih =>
    have up : ∀ e, TOk keep es e → TOk keep (te :: es) e := by
      rintro e (h | ⟨x, hx, r⟩)
      · exact Or.inl h
      · exact Or.inr ⟨x, List.mem_cons_of_mem _ hx, r⟩
    intro v e h
    unfold readEntries at h
    split at h
    · cases h
    · cases h
    · rename_i h1 h2
      have here : ∀ pos, TOk keep (te :: es) (.entry pos te.input te.timestamp (outItem (storeTiledEntry keep te))) :=
        fun pos => Or.inr ⟨te, List.mem_cons_self .., pos, h1, h2, rfl⟩
      dsimp only at h
      split at h
      · simp only [List.mem_cons] at h
        rcases h with h | h | h
        · rw [h]; exact here _
        · exact Or.inl ⟨_, h⟩
        · exact up _ (ih _ e h)
      · simp only [List.mem_cons] at h
        rcases h with h | h
        · rw [h]; exact here _
        · exact up _ (ih _ e h)

theorem readLogEntries_served (keep : Bool) (batch now : Nat) (v : TVars) (es : List TEntry) (err : Bool) :
    ∀ e ∈ (readLogEntries keep batch now v es err).1, TOk keep es e := by
  have h := readEntries_served keep batch now es v
  intro e he
  unfold readLogEntries at he
  split at he
  · rename_i he'; rw [he'] at h; exact h e he
  · rename_i he'
    rw [he'] at h
    simp at he
    rcases he with he | he
    · exact h e he
    · exact Or.inl ⟨_, he⟩

theorem runTiled_served (keep : Bool) (batch now : Nat) (s : WState) (sth : Option TreeHead) (es1 es2 : List TEntry) (e1 e2 : Bool) :
    ∀ e ∈ runTiled keep batch now s sth es1 es2 e1 e2, TOk keep (es1 ++ es2) e := by
  have up1 : ∀ e, TOk keep es1 e → TOk keep (es1 ++ es2) e := by
    rintro e (h | ⟨x, hx, r⟩)
    · exact Or.inl h
    · exact Or.inr ⟨x, List.mem_append_left _ hx, r⟩
  have up2 : ∀ e, TOk keep es2 e → TOk keep (es1 ++ es2) e := by
    rintro e (h | ⟨x, hx, r⟩)
    · exact Or.inl h
    · exact Or.inr ⟨x, List.mem_append_right _ hx, r⟩
  intro e h
  unfold runTiled at h
  split at h
  · cases h
  · dsimp only at h
    split at h
    · split at h
      · simp at h; exact Or.inl ⟨_, h⟩
      · cases h
    · exact up1 e (readLogEntries_served _ _ _ _ _ _ e h)
    · have h1 := readLogEntries_served keep batch now ⟨s.maxEntry, s.minTs, s.maxTs, s⟩ es1 e1
      split at h
      · rename_i he; rw [he] at h1; exact up1 e (h1 e h)
      · rename_i he
        rw [he] at h1
        rcases List.mem_append.1 h with h | h
        · exact up1 e (h1 e h)
        · exact up2 e (readLogEntries_served _ _ _ _ _ _ e h)
    · cases h

/-! ### what a state may claim -/

/-- The claim of a state: for tiled logs entry 0 is left out (`C25_tiled_fails`). -/
def Claimed (tiled : Bool) (s : WState) (i : Nat) : Prop :=
  if tiled then 1 ≤ i ∧ i ≤ s.maxEntry else Claims s i

/-- Everything that is known about a state, given the events and certificates so far. -/
structure StateOk (w : World) (log : Text) (evs : List Ev) (hv : List LogItem) (s : WState) : Prop where
  bound : w.tiled log = false → s.maxEntry < 18446744073709551615
  acc : ∀ i, Claimed (w.tiled log) s i → Accounted (w.G log) log evs hv i
  att : w.tiled log = true → Attained (w.T log) (w.G log) evs s
  ts : w.tiled log = false → TsOk False (w.G log) evs (w.T log) s

theorem StateOk.mono {w : World} {log : Text} {evs evs' : List Ev} {hv hv' : List LogItem} {s : WState}
    (h : StateOk w log evs hv s) (he : ∀ e ∈ evs, e ∈ evs') (hh : ∀ x ∈ hv, x ∈ hv') : StateOk w log evs' hv' s := by
  refine ⟨h.bound, fun i hi => ?_, fun ht => ?_, fun ht hl => ?_⟩
  · obtain ⟨x, y, z, m, g, f⟩ := h.acc i hi
    exact ⟨x, y, z, he _ m, g, fun it e => hh _ (f it e)⟩
  · rcases h.att ht with h | h | ⟨i, x, y, l, g, m⟩
    · exact Or.inl h
    · exact Or.inr (Or.inl h)
    · exact Or.inr (Or.inr ⟨i, x, y, l, g, he _ m⟩)
  · obtain ⟨h0, _, h2⟩ := h.ts ht hl
    refine ⟨h0, fun f => f.elim, ?_⟩
    rcases h2 with h2 | ⟨i, x, y, l, g, m⟩
    · exact Or.inl h2
    · exact Or.inr ⟨i, x, y, l, g, he _ m⟩

theorem stateOk_newLog (w : World) (log : Text) (evs : List Ev) (hv : List LogItem) : StateOk w log evs hv newLog := by
  refine ⟨fun _ => by decide, fun i hi => ?_, fun _ => Or.inl rfl, fun _ h => absurd rfl h⟩
  unfold Claimed at hi
  split at hi
  · simp only [newLog] at hi; omega
  · exact absurd rfl hi.1

/-- The certificates among a worker's events. -/
def itemsOf (log : Text) (evs : List Ev) : List LogItem := certs (evs.flatMap (evMsg log))

theorem certs_append (a b : List Msg) : certs (a ++ b) = certs a ++ certs b := by
  induction a with
  | nil => rfl
  | cons m a ih => cases m <;> simp [certs, ih]

theorem itemsOf_append (log : Text) (a b : List Ev) : itemsOf log (a ++ b) = itemsOf log a ++ itemsOf log b := by
  simp [itemsOf, certs_append]

theorem mem_itemsOf {log : Text} {evs : List Ev} {i ts : Nat} {input : Bytes} {it : Item}
    (h : Ev.entry i input ts (some it) ∈ evs) : (log, it) ∈ itemsOf log evs := by
  obtain ⟨a, b, rfl⟩ := List.append_of_mem h
  rw [itemsOf_append, show Ev.entry i input ts (some it) :: b = [Ev.entry i input ts (some it)] ++ b from rfl, itemsOf_append]
  simp [itemsOf, evMsg, certs]

theorem accounted_of_processed {G : Nat → Bytes → Prop} {log : Text} {evs a : List Ev} {hv : List LogItem} {i : Nat}
    (h : Accounted G log evs hv i ∨ Processed G a i) : Accounted G log (evs ++ a) (hv ++ itemsOf log a) i := by
  rcases h with ⟨x, y, z, m, g, f⟩ | ⟨x, y, z, m, g⟩
  · exact ⟨x, y, z, List.mem_append_left _ m, g, fun it e => List.mem_append_left _ (f it e)⟩
  · refine ⟨x, y, z, List.mem_append_right _ m, g, fun it e => List.mem_append_right _ ?_⟩
    subst e
    exact mem_itemsOf m

/-- Which leaves pass the Merkle check of a job. -/
def JobLeaves (H : Bytes → Bytes) (G : Nat → Bytes → Prop) (s : WState) (batch now : Nat) (sth : Option TreeHead)
    (proof : Option (List Bytes)) (rs : List Resp) : Prop :=
  ∀ h r p, sth = some h → jobRange batch s h.treeSize (chooseTask batch now s sth) = some r → proof = some p →
    ∀ bf us, jobSubtrees bf r.1 r.2 p = some us → ∀ t ∈ us, ∀ xs, xs.Sublist (servedInputs rs) →
      xs.length = t.last + 1 - t.first → mth H xs = t.root → ∀ k x, xs[k]? = some x → G (t.first + k) x

/-- A job of an RFC 6962 log only sends good states. -/
theorem stateOk_job (w : World) (env : Env) (hH : ∀ x, (env.H x).length = 32) (log : Text) (hw : w.tiled log = false)
    (evs : List Ev) (hv : List LogItem) (batch now : Nat) (s : WState) (sth : Option TreeHead) (proof : Option (List Bytes))
    (rs : List Resp) (hs : StateOk w log evs hv s) (hsane : Sane s sth) (hT : ∀ h, sth = some h → w.T log h)
    (hG : JobLeaves env.H (w.G log) s batch now sth proof rs) (a b : List Ev) (s' : WState)
    (hrun : runWorker env batch now s sth proof rs = a ++ .state s' :: b) :
    StateOk w log (evs ++ a) (hv ++ itemsOf log a) s' := by
  have h1 := C21_job env hH (w.G log) (Accounted (w.G log) log evs hv) batch now s sth proof rs hsane
    (by simpa using hs.bound hw) (fun i hi => hs.acc i (by simpa [Claimed, hw] using hi)) hG a b s' hrun
  have h2 := runWorker_ts False (w.G log) env hH (fun f => f.elim) (w.T log) batch now s sth proof rs evs (hs.bound hw) (hs.ts hw)
    (fun h e => hsane h e) hT hG a b s' hrun
  refine ⟨fun _ => h2.1, fun i hi => ?_, fun h => ?_, fun _ => h2.2.2⟩
  · rw [Claimed, hw] at hi
    exact accounted_of_processed (h1.2.2 i hi.2.1 hi.2.2)
  · rw [hw] at h; cases h

/-- A job of a tiled log only sends good states. -/
theorem stateOk_tiled (w : World) (log : Text) (hw : w.tiled log = true) (keep : Bool)
    (evs : List Ev) (hv : List LogItem) (batch now : Nat) (s : WState) (sth : Option TreeHead) (es1 es2 : List TEntry) (e1 e2 : Bool)
    (hs : StateOk w log evs hv s) (hT : ∀ h, sth = some h → w.T log h) (hG : TiledGood (w.G log) s es1 es2) (a b : List Ev)
    (s' : WState) (hrun : runTiled keep batch now s sth es1 es2 e1 e2 = a ++ .state s' :: b) :
    StateOk w log (evs ++ a) (hv ++ itemsOf log a) s' := by
  have h1 := runTiled_claims keep batch now s sth es1 es2 e1 e2 (w.G log) (Accounted (w.G log) log evs hv)
    (fun n t => t = 0 ∨ ∃ h, w.T log h ∧ h.timestamp = t ∧ h.treeSize ≤ n + 1)
    (by
      rintro n n' t hn (h | ⟨h, h1, h2, h3⟩)
      · exact Or.inl h
      · exact Or.inr ⟨h, h1, h2, by omega⟩)
    evs (fun i h1 h2 => hs.acc i (by simp [Claimed, hw, h1, h2]))
    (by
      rcases hs.att hw with h | h | h
      · exact Or.inl (Or.inl h)
      · exact Or.inl (Or.inr h)
      · exact Or.inr h)
    (by
      intro h e n hn
      refine Or.inr ⟨h, hT h e, rfl, ?_⟩
      unfold add64 at hn
      omega)
    hG a b s' hrun
  refine ⟨fun h => ?_, fun i hi => ?_, fun _ => ?_, fun h => ?_⟩
  · rw [hw] at h; cases h
  · rw [Claimed, hw] at hi
    have h2 := runTiled_claims keep batch now s sth es1 es2 e1 e2 (w.G log) (Accounted (w.G log) log evs hv)
      (fun _ _ => True) (fun _ _ _ _ _ => trivial) [] (fun i h1 h2 => hs.acc i (by simp [Claimed, hw, h1, h2]))
      (Or.inl trivial) (fun _ _ _ _ => trivial) hG a b s' hrun
    exact accounted_of_processed (by simpa using h2.1 i hi.1 hi.2)
  · rcases h1.2 with (h | h) | h
    · exact Or.inl h
    · exact Or.inr (Or.inl h)
    · exact Or.inr (Or.inr h)
  · rw [hw] at h; cases h

/-! ### the invariant of the whole process -/

/-- What the actions may do: jobs run on logs of their kind, and the world answers within `w`. -/
def Allowed (w : World) (env : Env) (y : Sys) : Act → Prop
  | .start log batch now sth proof rs =>
    w.tiled log = false ∧ Sane (y.saved log) sth ∧ (∀ h, sth = some h → w.T log h) ∧ (∀ l ∈ servedLeaves rs, w.L log l) ∧
      JobLeaves env.H (w.G log) (y.saved log) batch now sth proof rs
  | .startTiled log _ _ sth es1 es2 _ _ =>
    w.tiled log = true ∧ (∀ h, sth = some h → w.T log h) ∧ (∀ e ∈ es1 ++ es2, w.TL log e) ∧
      TiledGood (w.G log) (y.saved log) es1 es2
  | _ => True

/-- Every action of a run is allowed in the state in which it happens. -/
def AllAllowed (w : World) (env : Env) : Sys → List Act → Prop
  | _, [] => True
  | y, act :: acts => Allowed w env y act ∧ AllAllowed w env (y.step env act) acts

/-- Where the entry events of a log come from. -/
def EvOk (w : World) (env : Env) (log : Text) (e : Ev) : Prop :=
  (∃ s, e = .state s) ∨
  (w.tiled log = false ∧ ∃ l, w.L log l ∧ Ok env l ∧ ∃ pos, leafEvent env pos l = e) ∨
  (w.tiled log = true ∧ ∃ te, w.TL log te ∧ ∃ pos, storeTiledEntry env.keepExpired te ≠ .fatal ∧
    storeTiledEntry env.keepExpired te ≠ .retry ∧
    e = .entry pos te.input te.timestamp (outItem (storeTiledEntry env.keepExpired te)))

structure SysInv (w : World) (env : Env) (y : Sys) : Prop where
  saved : ∀ log, StateOk w log (eventsOf log y.seen) y.stored (y.saved log)
  chan : ∀ a b log s, y.chan = a ++ .state log s :: b →
    StateOk w log (eventsOf log y.seen) (y.stored ++ y.queue ++ certs a) s
  storing : ∀ log s, y.phase = .storing (.state log s) → StateOk w log (eventsOf log y.seen) (y.stored ++ y.queue) s
  saving : ∀ m, y.phase = .saving m → (∀ x ∈ y.queue, x ∈ y.stored) ∧
    ∀ log s, m = .state log s → StateOk w log (eventsOf log y.seen) y.stored s
  workers : ∀ log tr, (log, tr) ∈ y.workers → ∀ a b s, tr = a ++ .state s :: b →
    StateOk w log (eventsOf log y.seen ++ a) (y.stored ++ y.queue ++ certs y.chan ++ itemsOf log a) s
  evs : ∀ log tr, (log, tr) ∈ y.workers → ∀ e ∈ tr, EvOk w env log e
  seen : ∀ log e, (log, e) ∈ y.seen → EvOk w env log e

theorem sysInv_init (w : World) (env : Env) : SysInv w env Sys.init := by
  constructor
  · intro log; exact stateOk_newLog w log _ _
  · intro a b log s h; simp [Sys.init] at h
  · intro log s h; simp [Sys.init] at h
  · intro m h; simp [Sys.init] at h
  · intro log tr h; simp [Sys.init] at h
  · intro log tr h; simp [Sys.init] at h
  · intro log tr h; simp [Sys.init] at h

theorem mem_eventsOf {log : Text} {seen : List (Text × Ev)} {e : Ev} : e ∈ eventsOf log seen ↔ (log, e) ∈ seen := by
  unfold eventsOf
  rw [List.mem_filterMap]
  constructor
  · rintro ⟨⟨l, e'⟩, h1, h2⟩
    split at h2
    · rename_i hl
      cases h2
      dsimp only at hl
      subst hl
      exact h1
    · cases h2
  · intro h
    exact ⟨(log, e), h, by simp⟩

theorem certs_evMsg (log : Text) (e : Ev) : certs (evMsg log e) = itemsOf log [e] := by simp [itemsOf]

theorem sysInv_emit {w : World} {env : Env} {y : Sys} (hi : SysInv w env y) (k : Nat) : SysInv w env (y.step env (.emit k)) := by
  simp only [Sys.step]
  split
  · rename_i log e rest hk
    have hmem : (log, e :: rest) ∈ y.workers := List.mem_of_getElem? hk
    have up : ∀ l x, x ∈ eventsOf l y.seen → x ∈ eventsOf l (y.seen ++ [(log, e)]) := by
      intro l x hx
      rw [mem_eventsOf] at hx ⊢
      simp [hx]
    have eIn : e ∈ eventsOf log (y.seen ++ [(log, e)]) := by
      rw [mem_eventsOf]; simp
    constructor
    · intro l; exact (hi.saved l).mono (up l) (fun x hx => hx)
    · intro a b l s h
      dsimp only at h ⊢
      have : (∃ c, y.chan = a ++ .state l s :: c) ∨ (∃ a', a = y.chan ++ a' ∧ evMsg log e = a' ++ .state l s :: b) := by
        rcases List.append_eq_append_iff.1 h with ⟨a', h1, h2⟩ | ⟨c, h1, h2⟩
        · exact Or.inr ⟨a', h1, h2⟩
        · cases c with
          | nil =>
            simp at h1 h2
            exact Or.inr ⟨[], by simp [h1], h2.symm⟩
          | cons m c =>
            simp at h2
            obtain ⟨rfl, _⟩ := h2
            exact Or.inl ⟨c, h1⟩
      rcases this with ⟨c, hc⟩ | ⟨a', ha, he⟩
      · exact (hi.chan a c l s hc).mono (up l) (fun x hx => hx)
      · have hst : l = log ∧ e = .state s ∧ a' = [] := by
          cases e with
          | entry p i t it =>
            cases it with
            | none => simp [evMsg] at he
            | some it =>
              cases a' with
              | nil => simp [evMsg] at he
              | cons x xs => simp [evMsg] at he
          | state s0 =>
            cases a' with
            | nil => simp [evMsg] at he; obtain ⟨⟨rfl, rfl⟩, _⟩ := he; exact ⟨rfl, rfl, rfl⟩
            | cons x xs => simp [evMsg] at he
        obtain ⟨rfl, rfl, rfl⟩ := hst
        refine (hi.workers l _ hmem [] rest s rfl).mono ?_ ?_
        · intro x hx; simp at hx; exact up _ _ hx
        · intro x hx; rw [ha]; simpa [itemsOf, certs] using hx
    · intro l s h; exact (hi.storing l s h).mono (up l) (fun x hx => hx)
    · intro m h
      obtain ⟨h1, h2⟩ := hi.saving m h
      exact ⟨h1, fun l s e => (h2 l s e).mono (up l) (fun x hx => hx)⟩
    · intro l tr h a b s ht
      dsimp only at h ⊢
      rcases List.mem_or_eq_of_mem_set h with h | h
      · refine (hi.workers l tr h a b s ht).mono ?_ ?_
        · intro x hx
          rcases List.mem_append.1 hx with hx | hx
          · exact List.mem_append_left _ (up l _ hx)
          · exact List.mem_append_right _ hx
        · intro x hx
          rw [certs_append]
          simp only [List.mem_append] at hx ⊢
          rcases hx with ((hx | hx) | hx) | hx <;> simp [hx]
      · cases h
        refine (hi.workers log _ hmem (e :: a) b s (by rw [ht]; rfl)).mono ?_ ?_
        · intro x hx
          simp only [List.mem_append, List.mem_cons] at hx
          rcases hx with hx | rfl | hx
          · exact List.mem_append_left _ (up _ _ hx)
          · exact List.mem_append_left _ eIn
          · exact List.mem_append_right _ hx
        · intro x hx
          rw [certs_append, certs_evMsg]
          rw [show e :: a = [e] ++ a from rfl, itemsOf_append] at hx
          simp only [List.mem_append] at hx ⊢
          rcases hx with ((hx | hx) | hx) | hx | hx <;> simp [hx]
    · intro l tr h x hx
      rcases List.mem_or_eq_of_mem_set h with h | h
      · exact hi.evs l tr h x hx
      · cases h
        exact hi.evs log _ hmem x (List.mem_cons_of_mem _ hx)
    · intro l x hx
      dsimp only at hx
      rcases List.mem_append.1 hx with hx | hx
      · exact hi.seen l x hx
      · simp at hx
        obtain ⟨rfl, rfl⟩ := hx
        exact hi.evs l _ hmem x (List.mem_cons_self ..)
  · exact hi

theorem sysInv_receive {w : World} {env : Env} {y : Sys} (hi : SysInv w env y) (batch : Nat) :
    SysInv w env (y.step env (.receive batch)) := by
  simp only [Sys.step]
  split
  · rename_i m rest hph hch
    -- everything except the phase
    have core : (∀ a b l s, rest = a ++ .state l s :: b →
          StateOk w l (eventsOf l y.seen) (y.stored ++ enqueue y.queue m ++ certs a) s) ∧
        (∀ l tr, (l, tr) ∈ y.workers → ∀ a b s, tr = a ++ .state s :: b →
          StateOk w l (eventsOf l y.seen ++ a) (y.stored ++ enqueue y.queue m ++ certs rest ++ itemsOf l a) s) := by
      refine ⟨fun a b l s h => ?_, fun l tr h a b s ht => ?_⟩
      · refine (hi.chan (m :: a) b l s (by rw [hch, h]; rfl)).mono (fun x hx => hx) (fun x hx => ?_)
        cases m with
        | cert l' i =>
          simp only [certs, enqueue, List.mem_append, List.mem_cons] at hx ⊢
          rcases hx with (hx | hx) | hx | hx <;> simp [hx]
        | state l' s' => simpa [certs, enqueue] using hx
      · refine (hi.workers l tr h a b s ht).mono (fun x hx => hx) (fun x hx => ?_)
        rw [hch] at hx
        cases m with
        | cert l' i =>
          simp only [certs, enqueue, List.mem_append, List.mem_cons] at hx ⊢
          rcases hx with ((hx | hx) | hx | hx) | hx <;> simp [hx]
        | state l' s' => simpa [certs, enqueue] using hx
    split
    · refine ⟨hi.saved, core.1, fun l s h => ?_, fun m' h => ?_, core.2, hi.evs, hi.seen⟩
      · rw [hph] at h; cases h
      · rw [hph] at h; cases h
    · refine ⟨hi.saved, core.1, fun l s h => ?_, fun m' h => (by cases h), core.2, hi.evs, hi.seen⟩
      cases h
      have := hi.chan [] rest l s (by rw [hch]; rfl)
      simpa [certs, enqueue] using this
  · exact hi

theorem applySave_ok {w : World} {y : Sys} {evs : Text → List Ev} {hv : List LogItem} (m : Msg)
    (h1 : ∀ l, StateOk w l (evs l) hv (y.saved l)) (h2 : ∀ l s, m = .state l s → StateOk w l (evs l) hv s) :
    ∀ l, StateOk w l (evs l) hv (applySave y.saved m l) := by
  intro l
  cases m with
  | cert l' i => exact h1 l
  | state l' s =>
    simp only [applySave]
    split
    · rename_i h; subst h; exact h2 l s rfl
    · exact h1 l

theorem sysInv_step {w : World} {env : Env} (hH : ∀ x, (env.H x).length = 32) {y : Sys} (hi : SysInv w env y) (act : Act)
    (ha : Allowed w env y act) : SysInv w env (y.step env act) := by
  cases act with
  | start log batch now sth proof rs =>
    obtain ⟨h1, h2, h3, h4, h5⟩ := ha
    refine ⟨hi.saved, hi.chan, hi.storing, hi.saving, ?_, ?_, hi.seen⟩
    · intro l tr h a b s ht
      rcases List.mem_append.1 h with h | h
      · exact hi.workers l tr h a b s ht
      · simp at h
        obtain ⟨rfl, rfl⟩ := h
        refine (stateOk_job w env hH l h1 _ _ batch now _ sth proof rs (hi.saved l) h2 h3 h5 a b s ht).mono (fun x hx => hx) ?_
        intro x hx
        simp only [Sys.step, List.mem_append] at hx ⊢
        rcases hx with hx | hx <;> simp [hx]
    · intro l tr h e he
      rcases List.mem_append.1 h with h | h
      · exact hi.evs l tr h e he
      · simp at h
        obtain ⟨rfl, rfl⟩ := h
        by_cases hs : ∃ s, e = .state s
        · exact Or.inl hs
        · obtain ⟨x, hx, hok, hpos⟩ := runWorker_served env batch now _ sth proof rs e he (fun s h => hs ⟨s, h⟩)
          exact Or.inr (Or.inl ⟨h1, x, h4 x hx, hok, hpos⟩)
  | startTiled log batch now sth es1 es2 e1 e2 =>
    obtain ⟨h1, h3, h4, h5⟩ := ha
    refine ⟨hi.saved, hi.chan, hi.storing, hi.saving, ?_, ?_, hi.seen⟩
    · intro l tr h a b s ht
      rcases List.mem_append.1 h with h | h
      · exact hi.workers l tr h a b s ht
      · simp at h
        obtain ⟨rfl, rfl⟩ := h
        refine (stateOk_tiled w l h1 _ _ _ batch now _ sth es1 es2 e1 e2 (hi.saved l) h3 h5 a b s ht).mono (fun x hx => hx) ?_
        intro x hx
        simp only [Sys.step, List.mem_append] at hx ⊢
        rcases hx with hx | hx <;> simp [hx]
    · intro l tr h e he
      rcases List.mem_append.1 h with h | h
      · exact hi.evs l tr h e he
      · simp at h
        obtain ⟨rfl, rfl⟩ := h
        rcases runTiled_served _ _ _ _ _ _ _ _ _ e he with h | ⟨te, hte, pos, r⟩
        · exact Or.inl h
        · exact Or.inr (Or.inr ⟨h1, te, h4 te hte, pos, r⟩)
  | emit k => exact sysInv_emit hi k
  | stop k =>
    refine ⟨hi.saved, hi.chan, hi.storing, hi.saving, ?_, ?_, hi.seen⟩
    · intro l tr h; exact hi.workers l tr (List.mem_of_mem_eraseIdx h)
    · intro l tr h; exact hi.evs l tr (List.mem_of_mem_eraseIdx h)
  | receive batch => exact sysInv_receive hi batch
  | storeFails taken =>
    simp only [Sys.step]
    split
    · rename_i m hph
      refine ⟨?_, ?_, ?_, ?_, ?_, hi.evs, hi.seen⟩
      · intro l; exact (hi.saved l).mono (fun x hx => hx) (fun x hx => by simp [hx])
      · intro a b l s h
        refine (hi.chan a b l s h).mono (fun x hx => hx) (fun x hx => ?_)
        simp only [List.mem_append] at hx ⊢
        rcases hx with (hx | hx) | hx <;> simp [hx]
      · intro l s h
        refine (hi.storing l s h).mono (fun x hx => hx) (fun x hx => ?_)
        simp only [List.mem_append] at hx ⊢
        rcases hx with hx | hx <;> simp [hx]
      · intro m' h; rw [hph] at h; cases h
      · intro l tr h a b s ht
        refine (hi.workers l tr h a b s ht).mono (fun x hx => hx) (fun x hx => ?_)
        simp only [List.mem_append] at hx ⊢
        rcases hx with ((hx | hx) | hx) | hx <;> simp [hx]
    · exact hi
  | storeOk =>
    simp only [Sys.step]
    split
    · rename_i m hph
      refine ⟨?_, ?_, ?_, ?_, ?_, hi.evs, hi.seen⟩
      · intro l; exact (hi.saved l).mono (fun x hx => hx) (fun x hx => by simp [hx])
      · intro a b l s h
        refine (hi.chan a b l s h).mono (fun x hx => hx) (fun x hx => ?_)
        simp only [List.mem_append] at hx ⊢
        rcases hx with (hx | hx) | hx <;> simp [hx]
      · intro l s h; cases h
      · intro m' h
        cases h
        refine ⟨fun x hx => List.mem_append_right _ hx, fun l s e => ?_⟩
        exact hi.storing l s (by rw [hph, e])
      · intro l tr h a b s ht
        refine (hi.workers l tr h a b s ht).mono (fun x hx => hx) (fun x hx => ?_)
        simp only [List.mem_append] at hx ⊢
        rcases hx with ((hx | hx) | hx) | hx <;> simp [hx]
    · exact hi
  | saveOk =>
    simp only [Sys.step]
    split
    · rename_i m hph
      obtain ⟨hq, hm⟩ := hi.saving m hph
      refine ⟨applySave_ok m hi.saved hm, ?_, ?_, ?_, ?_, hi.evs, hi.seen⟩
      · intro a b l s h
        refine (hi.chan a b l s h).mono (fun x hx => hx) (fun x hx => ?_)
        simp only [List.mem_append, List.append_nil] at hx ⊢
        rcases hx with (hx | hx) | hx
        · exact Or.inl hx
        · exact Or.inl (hq x hx)
        · exact Or.inr hx
      · intro l s h; cases h
      · intro l h; cases h
      · intro l tr h a b s ht
        refine (hi.workers l tr h a b s ht).mono (fun x hx => hx) (fun x hx => ?_)
        simp only [List.mem_append, List.append_nil] at hx ⊢
        rcases hx with ((hx | hx) | hx) | hx
        · simp [hx]
        · simp [hq x hx]
        · simp [hx]
        · simp [hx]
    · exact hi
  | saveFails written =>
    simp only [Sys.step]
    split
    · rename_i m hph
      obtain ⟨hq, hm⟩ := hi.saving m hph
      refine ⟨?_, hi.chan, ?_, ?_, hi.workers, hi.evs, hi.seen⟩
      · cases written with
        | true => exact applySave_ok m hi.saved hm
        | false => exact hi.saved
      · intro l s h
        cases h
        exact (hm l s rfl).mono (fun x hx => hx) (fun x hx => List.mem_append_left _ hx)
      · intro m' h; cases h
    · exact hi
  | crash =>
    refine ⟨hi.saved, ?_, ?_, ?_, ?_, ?_, hi.seen⟩
    · intro a b l s h; simp [Sys.step] at h
    · intro l s h; cases h
    · intro l h; cases h
    · intro l tr h; cases h
    · intro l tr h; cases h

theorem sysInv_run {w : World} {env : Env} (hH : ∀ x, (env.H x).length = 32) (acts : List Act) : ∀ y, SysInv w env y →
    AllAllowed w env y acts → SysInv w env (y.run env acts) := by
  induction acts with
  | nil => intro y hi _; exact hi
  | cons act acts ih =>
    intro y hi ha
    exact ih _ (sysInv_step hH hi act ha.1) ha.2

end Verif
