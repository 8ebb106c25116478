import Verif.Model.Known
import Verif.Props.Keys
import Verif.Props.Data
/-!
Properties C44 and C45: aggregate-known.
-/
namespace Verif.Props

/-! ### C45 -/

theorem fillQueue_ok (enrolled : Text → Bool) (cap : Nat) (list : List IssuerDates) : ∀ q, q.length + queueCapacity enrolled list ≤ cap →
    (∀ u ∈ list, u.2 ≠ []) → fillQueue enrolled cap list q = some (q ++ list.filter (fun u => enrolled u.1)) := by
  induction list with
  | nil => intro q _ _; simp [fillQueue]
  | cons u rest ih =>
    intro q hq hne
    obtain ⟨i, ds⟩ := u
    have hds : ds ≠ [] := hne (i, ds) (by simp)
    have hlen : 1 ≤ ds.length := by
      cases ds with
      | nil => exact absurd rfl hds
      | cons => simp
    unfold queueCapacity at hq
    unfold fillQueue
    dsimp only
    cases he : enrolled i with
    | true =>
      rw [he, if_pos rfl] at hq
      rw [if_pos rfl, if_pos (by omega), ih _ (by simp; omega) (fun u hu => hne u (by simp [hu]))]
      simp [he]
    | false =>
      rw [he] at hq
      rw [if_neg (by simp), ih _ (by simpa using hq) (fun u hu => hne u (by simp [hu]))]
      simp [he]

/-- **C45.** For every content of the storage directory and every set of enrolled issuers, the queue does not overflow: it holds the units of exactly the enrolled
issuers. -/
theorem C45_no_overflow (enrolled : Text → Bool) (dirs : List DirEntry) (out : List IssuerDates) (h : listStorageBins dirs = some out) :
    buildQueue enrolled out = some (out.filter (fun u => enrolled u.1)) := by
  unfold buildQueue
  rw [fillQueue_ok enrolled _ out [] (by simp) (C40_listing_exact _ out h).2.1]
  rfl

/-- The listing is what makes it so: an issuer without dates would overflow the queue. -/
theorem C45_needs_dates : buildQueue (fun _ => true) [(['a'], [])] = none := by decide

example : ∃ dirs out, listStorageBins dirs = some out ∧ out.length = 1 ∧ buildQueue (fun _ => true) out = some out :=
  ⟨[⟨"issuer::a".toList, true, ["serials::2023-11-14-22::a".toList, "serials::2023-11-14-23::a".toList]⟩], _, rfl, by decide +kernel, by decide +kernel⟩

/-! ### C44 -/

/-- `bl` is what a run over the dates `dn` of issuer `i` may put into its file, if the run starts at `t0` and it is now `now`: a date is left out only if it has expired, and
put in only if it had not expired at the start, with the serials in storage. -/
inductive Sel (file : Text → Text → Option Text) (i : Text) (t0 now : Int) : List ExpDate → List (ExpDate × List Serial) → Prop
  | nil : Sel file i t0 now [] []
  | skip {dn bl d} : Sel file i t0 now dn bl → d.isExpiredAt now = true → Sel file i t0 now (dn ++ [d]) bl
  | put {dn bl d l} : Sel file i t0 now dn bl → d.isExpiredAt t0 = false → readSerialsFromStorage d.date (file i d.id) = .ok l →
      Sel file i t0 now (dn ++ [d]) (bl ++ [(d, l)])

/-- The text for these bins. -/
def blocksText (bl : List (ExpDate × List Serial)) : Text := (bl.map (fun p => writeSerialList p.1.date p.2)).flatten

theorem isExpiredAt_mono {d : ExpDate} {a b : Int} (h : a ≤ b) (hd : d.isExpiredAt a = true) : d.isExpiredAt b = true := by
  unfold ExpDate.isExpiredAt at *
  simp only [decide_eq_true_eq] at *
  omega

theorem Sel.later {file : Text → Text → Option Text} {i : Text} {t0 a b : Int} (h : a ≤ b) {dn : List ExpDate} {bl : List (ExpDate × List Serial)}
    (hs : Sel file i t0 a dn bl) : Sel file i t0 b dn bl := by
  induction hs with
  | nil => exact .nil
  | skip _ hd ih => exact .skip ih (isExpiredAt_mono h hd)
  | put _ hd hr ih => exact .put ih hd hr

/-- The file of issuer `i` holds the dates `dn`. -/
def Holds (file : Text → Text → Option Text) (t0 : Int) (a : Agg) (i : Text) (dn : List ExpDate) : Prop :=
  ∃ bl, Sel file i t0 a.clock dn bl ∧ a.files i = some (blocksText bl)

/-- `c` holds the dates `dn` except that the last bin that was put in is cut; what follows it in `dn` has expired. -/
def CutAtLast (file : Text → Text → Option Text) (i : Text) (t0 now : Int) (dn : List ExpDate) (c : Text) : Prop :=
  ∃ dn1 d dn2 bl l n, dn = dn1 ++ d :: dn2 ∧ Sel file i t0 now dn1 bl ∧ d.isExpiredAt t0 = false ∧ readSerialsFromStorage d.date (file i d.id) = .ok l ∧
    (∀ x ∈ dn2, x.isExpiredAt now = true) ∧ c = blocksText bl ++ (writeSerialList d.date l).take n

/-- The file of issuer `i` holds the dates `dn`; with `e` the last bin may be cut. -/
def HoldsE (file : Text → Text → Option Text) (t0 : Int) (a : Agg) (i : Text) (dn : List ExpDate) (e : Bool) : Prop :=
  (e = false ∧ Holds file t0 a i dn) ∨ (e = true ∧ a.silent = true ∧ ∃ c, a.files i = some c ∧ CutAtLast file i t0 a.clock dn c)

theorem HoldsE.keep {file : Text → Text → Option Text} {t0 : Int} {a b : Agg} {i : Text} {dn : List ExpDate} {e : Bool} (h : HoldsE file t0 a i dn e)
    (hf : b.files i = a.files i) (hc : a.clock ≤ b.clock) (hs : a.silent = true → b.silent = true) : HoldsE file t0 b i dn e := by
  rcases h with ⟨he, bl, h1, h2⟩ | ⟨he, h1, c, h2, dn1, d, dn2, bl, l, n, q1, q2, q3, q4, q5, q6⟩
  · exact Or.inl ⟨he, bl, h1.later hc, by rw [hf]; exact h2⟩
  · exact Or.inr ⟨he, hs h1, c, by rw [hf]; exact h2, dn1, d, dn2, bl, l, n, q1, q2.later hc, q3, q4, fun x hx => isExpiredAt_mono hc (q5 x hx), q6⟩

/-- What holds as long as nothing went wrong. -/
structure AggInv (file : Text → Text → Option Text) (prog : List IssuerDates) (t0 : Int) (a : Agg) : Prop where
  nodup : (a.queue.map Prod.fst).Nodup
  apart : ∀ (k : Nat) (i : Text) (ds : List ExpDate) (e : Bool), a.workers[k]? = some (KWorker.busy i ds e) → i ∉ a.queue.map Prod.fst
  single : ∀ (k k' : Nat) (i : Text) (ds ds' : List ExpDate) (e e' : Bool), a.workers[k]? = some (KWorker.busy i ds e) →
    a.workers[k']? = some (KWorker.busy i ds' e') → k = k'
  units : ∀ u ∈ prog, u ∈ a.queue ∨ (∃ (k : Nat) (todo dn : List ExpDate) (e : Bool), a.workers[k]? = some (KWorker.busy u.1 todo e) ∧ u.2 = dn ++ todo ∧
    HoldsE file t0 a u.1 dn e) ∨ (u.1 ∉ a.queue.map Prod.fst ∧ (∀ (k : Nat) (ds : List ExpDate) (e : Bool), a.workers[k]? ≠ some (KWorker.busy u.1 ds e)) ∧
    ∃ e, HoldsE file t0 a u.1 u.2 e)
  drained : ∀ k : Nat, a.workers[k]? = some KWorker.stopped → a.queue = []

/-- The invariant, under the conditions that make it hold. -/
def AggOk (file : Text → Text → Option Text) (prog : List IssuerDates) (t0 : Int) (a : Agg) : Prop :=
  t0 ≤ a.clock ∧ (a.cancelled = false → AggInv file prog t0 a)

theorem get_set {α : Type} {l : List α} {k j : Nat} {x y : α} (h : (l.set k x)[j]? = some y) : (j = k ∧ y = x) ∨ (j ≠ k ∧ l[j]? = some y) := by
  rw [List.getElem?_set] at h
  split at h
  · rename_i hk
    split at h
    · exact Or.inl ⟨hk.symm, (Option.some.inj h).symm⟩
    · cases h
  · rename_i hk
    exact Or.inr ⟨fun e => hk e.symm, h⟩

theorem get_set_self {α : Type} {l : List α} {k : Nat} {x y : α} (h : l[k]? = some y) : (l.set k x)[k]? = some x := by
  have := (List.getElem?_eq_some_iff.1 h).1
  rw [List.getElem?_set_self this]

theorem get_set_ne {α : Type} {l : List α} {k j : Nat} {x : α} (h : j ≠ k) : (l.set k x)[j]? = l[j]? := by
  rw [List.getElem?_set_ne (fun e => h e.symm)]

theorem blocksText_append (a b : List (ExpDate × List Serial)) : blocksText (a ++ b) = blocksText a ++ blocksText b := by
  simp [blocksText]

theorem aggOk_fail {file : Text → Text → Option Text} {prog : List IssuerDates} {t0 : Int} {a : Agg} {k : Nat} (h : t0 ≤ a.clock) :
    AggOk file prog t0 (a.fail k) := ⟨h, fun hc => by cases hc⟩

/-- A worker that leaves its unit. -/
theorem aggInv_leave {file : Text → Text → Option Text} {prog : List IssuerDates} {t0 : Int} {a : Agg} (hi : AggInv file prog t0 a) {k : Nat} {i : Text} {e : Bool}
    (hk : a.workers[k]? = some (.busy i [] e)) : AggInv file prog t0 { a with workers := a.workers.set k .ready } := by
  refine ⟨hi.nodup, fun j i' ds e' hj => ?_, fun j j' i' ds ds' e1 e2 hj hj' => ?_, fun u hu => ?_, fun j hj => ?_⟩
  · rcases get_set hj with ⟨_, h⟩ | ⟨_, h⟩
    · cases h
    · exact hi.apart j i' ds e' h
  · rcases get_set hj with ⟨_, h⟩ | ⟨_, h⟩
    · cases h
    · rcases get_set hj' with ⟨_, h'⟩ | ⟨_, h'⟩
      · cases h'
      · exact hi.single j j' i' ds ds' e1 e2 h h'
  · rcases hi.units u hu with h | ⟨j, todo, dn, e0, h1, h2, h3⟩ | ⟨h1, h2, e0, h3⟩
    · exact Or.inl h
    · by_cases hjk : j = k
      · subst hjk
        rw [hk] at h1
        cases h1
        refine Or.inr (Or.inr ⟨hi.apart j _ _ _ hk, fun j' ds e' hj' => ?_, ?_⟩)
        · rcases get_set hj' with ⟨_, h⟩ | ⟨hne, h⟩
          · cases h
          · exact hne (hi.single j' j _ _ _ _ _ h hk)
        · rw [h2, List.append_nil]; exact ⟨e, h3⟩
      · exact Or.inr (Or.inl ⟨j, todo, dn, e0, by rw [get_set_ne hjk]; exact h1, h2, h3⟩)
    · refine Or.inr (Or.inr ⟨h1, fun j ds e' hj => ?_, e0, h3⟩)
      rcases get_set hj with ⟨_, h⟩ | ⟨_, h⟩
      · cases h
      · exact h2 j ds e' h
  · rcases get_set hj with ⟨_, h⟩ | ⟨_, h⟩
    · cases h
    · exact hi.drained j h

/-- A worker that has treated one date: the file of its issuer has grown by what `Sel` permits. -/
theorem aggInv_date {file : Text → Text → Option Text} {prog : List IssuerDates} {t0 : Int} {a : Agg} (hi : AggInv file prog t0 a) {k : Nat} {i : Text}
    {d : ExpDate} {ds : List ExpDate} {e : Bool} (hk : a.workers[k]? = some (.busy i (d :: ds) e)) (files : Text → Option Text)
    (hother : ∀ j, j ≠ i → files j = a.files j)
    (e' sil : Bool) (hsil : a.silent = true → sil = true)
    (hthis : ∀ dn, HoldsE file t0 a i dn e → HoldsE file t0 { a with workers := a.workers.set k (.busy i ds e'), files := files, silent := sil } i (dn ++ [d]) e') :
    AggInv file prog t0 { a with workers := a.workers.set k (.busy i ds e'), files := files, silent := sil } := by
  refine ⟨hi.nodup, fun j i' ds e' hj => ?_, fun j j' i' ds ds' e1 e2 hj hj' => ?_, fun u hu => ?_, fun j hj => ?_⟩
  · rcases get_set hj with ⟨_, h⟩ | ⟨_, h⟩
    · cases h; exact hi.apart k _ _ _ hk
    · exact hi.apart j i' ds e' h
  · rcases get_set hj with ⟨hjk, h⟩ | ⟨hjk, h⟩
    · cases h
      rcases get_set hj' with ⟨hjk', h'⟩ | ⟨hjk', h'⟩
      · rw [hjk, hjk']
      · rw [hjk]; exact hi.single _ _ _ _ _ _ _ hk h'
    · rcases get_set hj' with ⟨hjk', h'⟩ | ⟨hjk', h'⟩
      · cases h'
        rw [hjk']; exact hi.single _ _ _ _ _ _ _ h hk
      · exact hi.single j j' i' ds ds' e1 e2 h h'
  · rcases hi.units u hu with h | ⟨j, todo, dn, e0, h1, h2, h3⟩ | ⟨h1, h2, e0, h3⟩
    · exact Or.inl h
    · by_cases hjk : j = k
      · subst hjk
        rw [hk] at h1
        cases h1
        exact Or.inr (Or.inl ⟨j, ds, dn ++ [d], e', get_set_self hk, by simp [h2], hthis dn h3⟩)
      · refine Or.inr (Or.inl ⟨j, todo, dn, e0, by rw [get_set_ne hjk]; exact h1, h2, ?_⟩)
        refine h3.keep ?_ (Int.le_refl _) hsil
        dsimp only
        rw [hother u.1 (fun e' => ?_)]
        rw [e'] at h1; exact hjk (hi.single _ _ _ _ _ _ _ h1 hk)
    · refine Or.inr (Or.inr ⟨h1, fun j ds' e' hj => ?_, ?_⟩)
      · rcases get_set hj with ⟨_, h⟩ | ⟨_, h⟩
        · have : u.1 = i := by cases h; rfl
          rw [this] at h2
          exact h2 k _ _ hk
        · exact h2 j ds' e' h
      · refine ⟨e0, h3.keep ?_ (Int.le_refl _) hsil⟩
        dsimp only
        rw [hother u.1 (fun e' => ?_)]
        rw [e'] at h2; exact h2 k _ _ hk
  · rcases get_set hj with ⟨_, h⟩ | ⟨_, h⟩
    · cases h
    · exact hi.drained j h

/-- A worker that takes the next unit. -/
theorem aggInv_take {file : Text → Text → Option Text} {prog : List IssuerDates} {t0 : Int} {a : Agg} (hi : AggInv file prog t0 a) {k : Nat} {i : Text}
    {ds : List ExpDate} {q : List IssuerDates} (hk : a.workers[k]? = some .ready) (hq : a.queue = (i, ds) :: q) :
    AggInv file prog t0 { a with queue := q, files := truncFile a.files i, workers := a.workers.set k (.busy i ds false) } := by
  have hnd := hi.nodup
  rw [hq, List.map_cons, List.nodup_cons] at hnd
  have hin : i ∈ a.queue.map Prod.fst := by rw [hq]; simp
  have keep : ∀ j dn e, j ≠ i → HoldsE file t0 a j dn e →
      HoldsE file t0 { a with queue := q, files := truncFile a.files i, workers := a.workers.set k (.busy i ds false) } j dn e := by
    intro j dn e hj h
    refine h.keep ?_ (Int.le_refl _) id
    show truncFile a.files i j = _
    unfold truncFile
    rw [if_neg hj]
  have tail : ∀ j, j ∉ a.queue.map Prod.fst → j ∉ q.map Prod.fst := by
    intro j h h'
    apply h; rw [hq]; simp only [List.map_cons, List.mem_cons]; exact Or.inr h'
  refine ⟨hnd.2, fun j i' ds e' hj => ?_, fun j j' i' ds ds' e1 e2 hj hj' => ?_, fun u hu => ?_, fun j hj => ?_⟩
  · rcases get_set hj with ⟨_, h⟩ | ⟨_, h⟩
    · cases h; exact hnd.1
    · exact tail _ (hi.apart j i' ds e' h)
  · rcases get_set hj with ⟨hjk, h⟩ | ⟨hjk, h⟩
    · cases h
      rcases get_set hj' with ⟨hjk', h'⟩ | ⟨hjk', h'⟩
      · rw [hjk, hjk']
      · exact absurd hin (hi.apart _ _ _ _ h')
    · rcases get_set hj' with ⟨hjk', h'⟩ | ⟨hjk', h'⟩
      · cases h'
        exact absurd hin (hi.apart _ _ _ _ h)
      · exact hi.single j j' i' ds ds' e1 e2 h h'
  · rcases hi.units u hu with h | ⟨j, todo, dn, e0, h1, h2, h3⟩ | ⟨h1, h2, e0, h3⟩
    · rw [hq] at h
      rcases List.mem_cons.1 h with h | h
      · subst h
        refine Or.inr (Or.inl ⟨k, ds, [], false, get_set_self hk, rfl, Or.inl ⟨rfl, [], .nil, ?_⟩⟩)
        show truncFile a.files i i = some []
        unfold truncFile
        rw [if_pos rfl]
      · exact Or.inl h
    · have hne : u.1 ≠ i := fun e => hi.apart _ _ _ _ h1 (e ▸ hin)
      have hjk : j ≠ k := fun e => by rw [e, hk] at h1; cases h1
      exact Or.inr (Or.inl ⟨j, todo, dn, e0, by rw [get_set_ne hjk]; exact h1, h2, keep _ _ _ hne h3⟩)
    · have hne : u.1 ≠ i := fun e => h1 (e ▸ hin)
      refine Or.inr (Or.inr ⟨tail _ h1, fun j ds' e' hj => ?_, e0, keep _ _ _ hne h3⟩)
      rcases get_set hj with ⟨_, h⟩ | ⟨_, h⟩
      · cases h; exact hne rfl
      · exact h2 j ds' e' h
  · rcases get_set hj with ⟨_, h⟩ | ⟨_, h⟩
    · cases h
    · have := hi.drained j h
      rw [hq] at this
      cases this

/-- A worker that finds the queue empty. -/
theorem aggInv_stop {file : Text → Text → Option Text} {prog : List IssuerDates} {t0 : Int} {a : Agg} (hi : AggInv file prog t0 a) {k : Nat}
    (hk : a.workers[k]? = some .ready) (hq : a.queue = []) : AggInv file prog t0 { a with workers := a.workers.set k .stopped } := by
  refine ⟨hi.nodup, fun j i' ds e' hj => ?_, fun j j' i' ds ds' e1 e2 hj hj' => ?_, fun u hu => ?_, fun j hj => hq⟩
  · rcases get_set hj with ⟨_, h⟩ | ⟨_, h⟩
    · cases h
    · exact hi.apart j i' ds e' h
  · rcases get_set hj with ⟨_, h⟩ | ⟨_, h⟩
    · cases h
    · rcases get_set hj' with ⟨_, h'⟩ | ⟨_, h'⟩
      · cases h'
      · exact hi.single j j' i' ds ds' e1 e2 h h'
  · rcases hi.units u hu with h | ⟨j, todo, dn, e0, h1, h2, h3⟩ | ⟨h1, h2, e0, h3⟩
    · exact Or.inl h
    · have hjk : j ≠ k := fun e => by rw [e, hk] at h1; cases h1
      exact Or.inr (Or.inl ⟨j, todo, dn, e0, by rw [get_set_ne hjk]; exact h1, h2, h3⟩)
    · refine Or.inr (Or.inr ⟨h1, fun j ds e' hj => ?_, e0, h3⟩)
      rcases get_set hj with ⟨_, h⟩ | ⟨_, h⟩
      · cases h
      · exact h2 j ds e' h

theorem aggOk_step {file : Text → Text → Option Text} {prog : List IssuerDates} {t0 : Int} {a : Agg} (h : AggOk file prog t0 a) (act : KAct) :
    AggOk file prog t0 (a.step file act) := by
  obtain ⟨ht, hi⟩ := h
  have hbefore : ∀ {d : ExpDate}, ¬d.isExpiredAt a.clock = true → d.isExpiredAt t0 = false := by
    intro d hexp
    cases hx : d.isExpiredAt t0 with
    | false => rfl
    | true => exact absurd (isExpiredAt_mono ht hx) hexp
  cases act with
  | tick now =>
    simp only [Agg.step]
    split
    · rename_i hn
      refine ⟨by dsimp only; omega, fun hc => ?_⟩
      have hi := hi hc
      have keep : ∀ i dn e, HoldsE file t0 a i dn e → HoldsE file t0 { a with clock := now } i dn e :=
        fun i dn e h => h.keep rfl hn id
      refine ⟨hi.nodup, hi.apart, hi.single, fun u hu => ?_, hi.drained⟩
      rcases hi.units u hu with h | ⟨j, todo, dn, e0, h1, h2, h3⟩ | ⟨h1, h2, e0, h3⟩
      · exact Or.inl h
      · exact Or.inr (Or.inl ⟨j, todo, dn, e0, h1, h2, keep _ _ _ h3⟩)
      · exact Or.inr (Or.inr ⟨h1, h2, e0, keep _ _ _ h3⟩)
    · exact ⟨ht, hi⟩
  | signal => exact ⟨ht, fun hc => by cases hc⟩
  | mkdirFails k =>
    simp only [Agg.step]
    split
    · exact aggOk_fail ht
    · exact ⟨ht, hi⟩
  | take k opens =>
    simp only [Agg.step]
    split
    · rename_i hk
      split
      · rename_i hq
        exact ⟨ht, fun hc => aggInv_stop (hi hc) hk hq⟩
      · rename_i i ds q hq
        split
        · exact ⟨ht, fun hc => aggInv_take (hi hc) hk hq⟩
        · exact aggOk_fail ht
    · exact ⟨ht, hi⟩
  | date k readFails out =>
    simp only [Agg.step]
    split
    · rename_i i e hk
      refine ⟨ht, fun hc => ?_⟩
      have hc' : a.cancelled = false := hc
      simp only [hc', Bool.false_eq_true, if_false]
      rw [← hc']
      exact aggInv_leave (hi hc) hk
    · rename_i i d ds e hk
      split
      · rename_i hcan
        exact ⟨ht, fun hc => by rw [show a.cancelled = false from hc] at hcan; cases hcan⟩
      · split
        · rename_i hexp
          refine ⟨ht, fun hc => ?_⟩
          refine aggInv_date (hi hc) hk a.files (fun _ _ => rfl) e a.silent id ?_
          rintro dn (⟨he, bl, h1, h2⟩ | ⟨he, h1, c, h2, dn1, d', dn2, bl, l, n, q1, q2, q3, q4, q5, q6⟩)
          · exact Or.inl ⟨he, bl, .skip h1 hexp, h2⟩
          · refine Or.inr ⟨he, h1, c, h2, dn1, d', dn2 ++ [d], bl, l, n, by simp [q1], q2, q3, q4, fun x hx => ?_, q6⟩
            rcases List.mem_append.1 hx with hx | hx
            · exact q5 x hx
            · rw [List.mem_singleton.1 hx]; exact hexp
        · rename_i hexp
          split
          · exact aggOk_fail ht
          · split
            · exact aggOk_fail ht
            · rename_i l hl
              cases out with
              | fine =>
                simp only [Agg.write]
                split
                · exact aggOk_fail ht
                · rename_i he
                  refine ⟨ht, fun hc => ?_⟩
                  refine aggInv_date (hi hc) hk _ ?_ false a.silent id ?_
                  · intro j hj
                    unfold appendFile
                    rw [if_neg hj]
                  · rintro dn (⟨_, bl, h1, h2⟩ | ⟨he', _⟩)
                    · refine Or.inl ⟨rfl, bl ++ [(d, l)], .put h1 (hbefore hexp) hl, ?_⟩
                      dsimp only
                      unfold appendFile
                      rw [if_pos rfl, h2, blocksText_append]
                      simp [blocksText]
                    · exact absurd he' he
              | silent n =>
                simp only [Agg.write]
                split
                · exact aggOk_fail ht
                · rename_i he
                  refine ⟨ht, fun hc => ?_⟩
                  refine aggInv_date (hi hc) hk _ ?_ true true (fun _ => rfl) ?_
                  · intro j hj
                    unfold appendFile
                    rw [if_neg hj]
                  · rintro dn (⟨_, bl, h1, h2⟩ | ⟨he', _⟩)
                    · refine Or.inr ⟨rfl, rfl, _, ?_, dn, d, [], bl, l, n, rfl, h1, hbefore hexp, hl, (fun x hx => by cases hx), rfl⟩
                      dsimp only
                      unfold appendFile
                      rw [if_pos rfl, h2]
                      rfl
                    · exact absurd he' he
              | noticed n => exact aggOk_fail ht
    · exact ⟨ht, hi⟩

theorem aggOk_run {file : Text → Text → Option Text} {prog : List IssuerDates} {t0 : Int} (acts : List KAct) : ∀ a, AggOk file prog t0 a →
    AggOk file prog t0 (a.run file acts) := by
  induction acts with
  | nil => intro a h; exact h
  | cons x xs ih => intro a h; exact ih _ (aggOk_step h x)

theorem get_replicate {α : Type} {n k : Nat} {x y : α} (h : (List.replicate n x)[k]? = some y) : y = x := by
  have := List.mem_of_getElem? h
  exact (List.mem_replicate.1 this).2

theorem aggOk_init (file : Text → Text → Option Text) (prog : List IssuerDates) (hn : (prog.map Prod.fst).Nodup) (threads : Nat)
    (files : Text → Option Text) (t0 : Int) : AggOk file prog t0 (Agg.init prog threads files t0) := by
  refine ⟨Int.le_refl _, fun _ => ⟨hn, fun k i ds e h => ?_, fun k k' i ds ds' e e' h _ => ?_, fun u hu => Or.inl hu, fun k h => ?_⟩⟩
  · cases get_replicate h
  · cases get_replicate h
  · cases get_replicate h

/-- The number of workers never changes. -/
theorem write_workers (a : Agg) (k : Nat) (i : Text) (rest : List ExpDate) (err : Bool) (text : Text) (o : WriteOut) :
    (a.write k i rest err text o).workers.length = a.workers.length := by
  cases o <;> simp only [Agg.write] <;> (try split) <;> simp [Agg.fail]

theorem step_workers (file : Text → Text → Option Text) (a : Agg) (act : KAct) : (a.step file act).workers.length = a.workers.length := by
  cases act with
  | tick now => simp only [Agg.step]; split <;> rfl
  | signal => rfl
  | mkdirFails k => simp only [Agg.step]; split <;> simp [Agg.fail]
  | take k o =>
    simp only [Agg.step]
    split
    · split
      · simp
      · split <;> simp [Agg.fail]
    · rfl
  | date k r o =>
    simp only [Agg.step]
    split
    · simp
    · split
      · simp
      · split
        · simp
        · split
          · simp [Agg.fail]
          · split
            · simp [Agg.fail]
            · exact write_workers ..
    · rfl

theorem run_workers (file : Text → Text → Option Text) (acts : List KAct) : ∀ a : Agg, (a.run file acts).workers.length = a.workers.length := by
  induction acts with
  | nil => intro a; rfl
  | cons x xs ih => intro a; exact (ih _).trans (step_workers file a x)

theorem Sel.complete {file : Text → Text → Option Text} {i : Text} {t0 now : Int} {ds : List ExpDate} {bl : List (ExpDate × List Serial)}
    (h : Sel file i t0 now ds bl) : (∀ d ∈ ds, d.isExpiredAt now = false → ∃ l, readSerialsFromStorage d.date (file i d.id) = .ok l ∧ (d, l) ∈ bl) ∧
    ∀ p ∈ bl, p.1 ∈ ds ∧ p.1.isExpiredAt t0 = false ∧ readSerialsFromStorage p.1.date (file i p.1.id) = .ok p.2 := by
  induction h with
  | nil => simp
  | skip _ hd ih =>
    refine ⟨fun d hdm hne => ?_, fun p hp => ?_⟩
    · rcases List.mem_append.1 hdm with hm | hm
      · exact ih.1 d hm hne
      · simp only [List.mem_singleton] at hm
        subst hm
        rw [hd] at hne
        cases hne
    · exact ⟨List.mem_append_left _ (ih.2 p hp).1, (ih.2 p hp).2⟩
  | put _ hd hr ih =>
    refine ⟨fun d hdm hne => ?_, fun p hp => ?_⟩
    · rcases List.mem_append.1 hdm with hm | hm
      · obtain ⟨l, h1, h2⟩ := ih.1 d hm hne
        exact ⟨l, h1, List.mem_append_left _ h2⟩
      · simp only [List.mem_singleton] at hm
        subst hm
        exact ⟨_, hr, by simp⟩
    · rcases List.mem_append.1 hp with hp | hp
      · exact ⟨List.mem_append_left _ (ih.2 p hp).1, (ih.2 p hp).2⟩
      · simp only [List.mem_singleton] at hp
        subst hp
        exact ⟨by simp, hd, hr⟩

/-- A known file as the filter builder reads it. -/
theorem read_blocks (bl : List (ExpDate × List Serial)) (h : ∀ p ∈ bl, 0 ≤ p.1.date ∧ p.1.date < 2 ^ 64) :
    readKnownFile (blocksText bl) = some (bl.map (fun p => p.2.map (fun s => (p.1.date.toNat, hexEncode s)))).flatten := by
  have key := C05_known_file_roundtrip (bl.map (fun p => (p.1.date.toNat, p.2))) (fun b hb => by
    obtain ⟨p, hp, rfl⟩ := List.mem_map.1 hb
    have := h p hp
    dsimp only
    omega)
  rw [List.map_map, List.map_map] at key
  have e : blocksText bl = (bl.map ((fun b => writeSerialList (b.1 : Int) b.2) ∘ fun p => (p.1.date.toNat, p.2))).flatten := by
    unfold blocksText
    congr 1
    apply List.map_congr_left
    intro p hp
    have := (h p hp).1
    simp only [Function.comp]
    rw [Int.toNat_of_nonneg this]
  rw [e]
  exact key

/-- After success every unit has been written, with the last bin perhaps cut. -/
theorem agg_success_holdsE (file : Text → Text → Option Text) (prog : List IssuerDates) (hn : (prog.map Prod.fst).Nodup) (threads : Nat) (h1 : 1 ≤ threads)
    (files : Text → Option Text) (t0 : Int) (acts : List KAct) (hok : ((Agg.init prog threads files t0).run file acts).success = true)
    (i : Text) (ds : List ExpDate) (hm : (i, ds) ∈ prog) :
    ∃ e, HoldsE file t0 ((Agg.init prog threads files t0).run file acts) i ds e := by
  have hlen := run_workers file acts (Agg.init prog threads files t0)
  have hinv := aggOk_run acts _ (aggOk_init file prog hn threads files t0)
  generalize (Agg.init prog threads files t0).run file acts = a at *
  simp only [Agg.success, Bool.and_eq_true, List.all_eq_true, decide_eq_true_eq, Bool.not_eq_true'] at hok
  have hi := hinv.2 hok.2
  have hlen' : 0 < a.workers.length := by
    rw [hlen]; simp [Agg.init]; omega
  have hq : a.queue = [] := hi.drained 0 (by
    rw [List.getElem?_eq_getElem hlen']
    exact congrArg some (hok.1 _ (List.getElem_mem hlen')))
  rcases hi.units (i, ds) hm with h | ⟨j, todo, dn, e, h1, h2, h3⟩ | ⟨_, _, h3⟩
  · rw [hq] at h; cases h
  · exact absurd (hok.1 _ (List.mem_of_getElem? h1)) (by simp)
  · exact h3

/-- After success every unit has been written. -/
theorem agg_success_holds (file : Text → Text → Option Text) (prog : List IssuerDates) (hn : (prog.map Prod.fst).Nodup) (threads : Nat) (h1 : 1 ≤ threads)
    (files : Text → Option Text) (t0 : Int) (acts : List KAct) (hok : ((Agg.init prog threads files t0).run file acts).success = true)
    (hsil : ((Agg.init prog threads files t0).run file acts).silent = false) (i : Text) (ds : List ExpDate) (hm : (i, ds) ∈ prog) :
    Holds file t0 ((Agg.init prog threads files t0).run file acts) i ds := by
  obtain ⟨e, h⟩ := agg_success_holdsE file prog hn threads h1 files t0 acts hok i ds hm
  rcases h with ⟨_, h⟩ | ⟨_, h, _⟩
  · exact h
  · rw [hsil] at h; cases h

/-- **C44 (complete, partial).** For every storage content, list of enrolled issuers with their dates, number of workers (at least one), schedule, passing of time, and error pattern:
if the program reports success, the known file of every enrolled issuer is read by the filter builder as a list with all stored serials of all bins that have not yet expired, and
with nothing but stored serials of bins that had not expired when the workers started. Missing: a failure in the last flush of a bin is not noticed (`C44_last_flush_fails`), and
with no workers at all the program succeeds without doing anything (`C44_no_workers_fails`). -/
theorem C44_complete_partial (file : Text → Text → Option Text) (prog : List IssuerDates) (hn : (prog.map Prod.fst).Nodup) (threads : Nat) (h1 : 1 ≤ threads)
    (files : Text → Option Text) (t0 : Int) (acts : List KAct) (hok : ((Agg.init prog threads files t0).run file acts).success = true)
    (hsil : ((Agg.init prog threads files t0).run file acts).silent = false) (i : Text) (ds : List ExpDate) (hm : (i, ds) ∈ prog)
    (hds : ∀ d ∈ ds, d.isExpiredAt t0 = false → 0 ≤ d.date ∧ d.date < 2 ^ 64) :
    ∃ content entries, ((Agg.init prog threads files t0).run file acts).files i = some content ∧ readKnownFile content = some entries ∧
      (∀ d ∈ ds, d.isExpiredAt ((Agg.init prog threads files t0).run file acts).clock = false →
        ∃ l, readSerialsFromStorage d.date (file i d.id) = .ok l ∧ ∀ s ∈ l, (d.date.toNat, hexEncode s) ∈ entries) ∧
      ∀ e ∈ entries, ∃ d ∈ ds, d.isExpiredAt t0 = false ∧ ∃ l, readSerialsFromStorage d.date (file i d.id) = .ok l ∧
        ∃ s ∈ l, e = (d.date.toNat, hexEncode s) := by
  obtain ⟨bl, hs, hf⟩ := agg_success_holds file prog hn threads h1 files t0 acts hok hsil i ds hm
  obtain ⟨c1, c2⟩ := hs.complete
  refine ⟨blocksText bl, _, hf, read_blocks bl (fun p hp => hds _ (c2 p hp).1 (c2 p hp).2.1), fun d hd hne => ?_, fun e he => ?_⟩
  · obtain ⟨l, hl, hb⟩ := c1 d hd hne
    refine ⟨l, hl, fun s hs => ?_⟩
    rw [List.mem_flatten]
    exact ⟨_, List.mem_map.2 ⟨(d, l), hb, rfl⟩, List.mem_map.2 ⟨s, hs, rfl⟩⟩
  · rw [List.mem_flatten] at he
    obtain ⟨x, hx, he⟩ := he
    obtain ⟨p, hp, rfl⟩ := List.mem_map.1 hx
    obtain ⟨s, hs, rfl⟩ := List.mem_map.1 he
    obtain ⟨q1, q2, q3⟩ := c2 p hp
    exact ⟨p.1, q1, q2, p.2, q3, s, hs, rfl⟩

/-- **C44 (errors that are not noticed).** Even if flushes fail without being noticed: after success at most the last bin of a file is cut. Every other bin that has not
expired is in the file completely and in order, and after the cut bin there are only expired ones. -/
theorem C44_only_last_bin_cut (file : Text → Text → Option Text) (prog : List IssuerDates) (hn : (prog.map Prod.fst).Nodup) (threads : Nat) (h1 : 1 ≤ threads)
    (files : Text → Option Text) (t0 : Int) (acts : List KAct) (hok : ((Agg.init prog threads files t0).run file acts).success = true)
    (i : Text) (ds : List ExpDate) (hm : (i, ds) ∈ prog) :
    ∃ before last : Text, ((Agg.init prog threads files t0).run file acts).files i = some (before ++ last) ∧
      ∃ dn1 dn2, ds = dn1 ++ dn2 ∧
      (∀ d ∈ dn1, d.isExpiredAt ((Agg.init prog threads files t0).run file acts).clock = false →
        ∃ l x y, readSerialsFromStorage d.date (file i d.id) = .ok l ∧ before = x ++ writeSerialList d.date l ++ y) ∧
      (last = [] ∨ ∃ d l n, dn2.head? = some d ∧ readSerialsFromStorage d.date (file i d.id) = .ok l ∧ last = (writeSerialList d.date l).take n) ∧
      (∀ d ∈ dn2.drop 1, d.isExpiredAt ((Agg.init prog threads files t0).run file acts).clock = true) ∧
      (dn2 ≠ [] → ((Agg.init prog threads files t0).run file acts).silent = true) := by
  have inText : ∀ {bl : List (ExpDate × List Serial)} {p : ExpDate × List Serial}, p ∈ bl → ∃ x y, blocksText bl = x ++ writeSerialList p.1.date p.2 ++ y := by
    intro bl p hp
    obtain ⟨u, v, rfl⟩ := List.append_of_mem hp
    exact ⟨blocksText u, blocksText v, by simp [blocksText]⟩
  obtain ⟨e, h⟩ := agg_success_holdsE file prog hn threads h1 files t0 acts hok i ds hm
  rcases h with ⟨_, bl, hs, hf⟩ | ⟨_, hsil, c, hf, dn1, d, dn2, bl, l, n, q1, q2, q3, q4, q5, q6⟩
  · refine ⟨blocksText bl, [], by rw [List.append_nil]; exact hf, ds, [], (List.append_nil _).symm, fun d hd hne => ?_, Or.inl rfl,
      (fun x hx => by cases hx), fun hx => absurd rfl hx⟩
    obtain ⟨l, hl, hb⟩ := hs.complete.1 d hd hne
    obtain ⟨x, y, hxy⟩ := inText hb
    exact ⟨l, x, y, hl, hxy⟩
  · refine ⟨blocksText bl, _, by rw [hf, q6], dn1, d :: dn2, q1, fun d' hd hne => ?_, Or.inr ⟨d, l, n, rfl, q4, rfl⟩, q5, fun _ => hsil⟩
    obtain ⟨l', hl, hb⟩ := q2.complete.1 d' hd hne
    obtain ⟨x, y, hxy⟩ := inText hb
    exact ⟨l', x, y, hl, hxy⟩

/-- An error that is noticed is reported. -/
theorem errors_step (file : Text → Text → Option Text) (a : Agg) (act : KAct) (h : a.errors ≠ 0 → a.cancelled = true) :
    (a.step file act).errors ≠ 0 → (a.step file act).cancelled = true := by
  have hf : ∀ (b : Agg) k, (b.fail k).cancelled = true := fun _ _ => rfl
  cases act with
  | tick now => simp only [Agg.step]; split <;> exact h
  | signal => intro _; rfl
  | mkdirFails k =>
    simp only [Agg.step]
    split
    · exact fun _ => rfl
    · exact h
  | take k o =>
    simp only [Agg.step]
    split
    · split
      · exact h
      · split
        · exact h
        · exact fun _ => rfl
    · exact h
  | date k r o =>
    simp only [Agg.step]
    split
    · exact h
    · split
      · exact h
      · split
        · exact h
        · split
          · exact fun _ => rfl
          · split
            · exact fun _ => rfl
            · cases o with
              | noticed n => exact fun _ => rfl
              | fine => simp only [Agg.write]; split <;> first | exact h | exact fun _ => rfl
              | silent n => simp only [Agg.write]; split <;> first | exact h | exact fun _ => rfl
    · exact h

/-- What is an error or a signal when it happens in this state: the directory cannot be made; the file of the next issuer cannot be opened; a bin that is still due cannot be read, is not a list of serials, or cannot be written, also if
what was written to the file before has not reached the disk. -/
inductive Spec.Mishap (file : Text → Text → Option Text) (a : Agg) : KAct → Prop
  | signal : Mishap file a .signal
  | mkdir (k : Nat) : a.workers[k]? = some .ready → Mishap file a (.mkdirFails k)
  | opens (k : Nat) : a.workers[k]? = some .ready → a.queue ≠ [] → Mishap file a (.take k false)
  | read (k : Nat) (i : Text) (d : ExpDate) (ds : List ExpDate) (err : Bool) (out : WriteOut) : a.workers[k]? = some (.busy i (d :: ds) err) → ¬d.isExpiredAt a.clock → Mishap file a (.date k true out)
  | garbled (k : Nat) (i : Text) (d : ExpDate) (ds : List ExpDate) (err rf : Bool) (out : WriteOut) : a.workers[k]? = some (.busy i (d :: ds) err) → ¬d.isExpiredAt a.clock →
      (∀ l, readSerialsFromStorage d.date (file i d.id) ≠ .ok l) → Mishap file a (.date k rf out)
  | write (k : Nat) (i : Text) (d : ExpDate) (ds : List ExpDate) (err rf : Bool) (n : Nat) : a.workers[k]? = some (.busy i (d :: ds) err) → ¬d.isExpiredAt a.clock → Mishap file a (.date k rf (.noticed n))
  | before (k : Nat) (i : Text) (d : ExpDate) (ds : List ExpDate) (rf : Bool) (out : WriteOut) : a.workers[k]? = some (.busy i (d :: ds) true) → ¬d.isExpiredAt a.clock → Mishap file a (.date k rf out)

theorem mishap_cancels {file : Text → Text → Option Text} {a : Agg} {x : KAct} (h : Spec.Mishap file a x) : (a.step file x).cancelled = true := by
  cases h with
  | signal => rfl
  | mkdir k hk => simp only [Agg.step, hk, if_true]; rfl
  | opens k hk hq =>
    simp only [Agg.step, hk, if_true]
    cases hq' : a.queue with
    | nil => exact absurd hq' hq
    | cons u q => rfl
  | read k i d ds err out hk hd =>
    simp only [Agg.step, hk, hd]
    split
    · assumption
    · rfl
  | garbled k i d ds err rf out hk hd hr =>
    simp only [Agg.step, hk, hd]
    split
    · assumption
    · cases rf with
      | true => rfl
      | false =>
        cases hx : readSerialsFromStorage d.date (file i d.id) with
        | error => rfl
        | ok l => exact absurd hx (hr l)
  | write k i d ds err rf n hk hd =>
    simp only [Agg.step, hk, hd]
    split
    · assumption
    · cases rf with
      | true => rfl
      | false =>
        cases hx : readSerialsFromStorage d.date (file i d.id) with
        | error => rfl
        | ok l => rfl
  | before k i d ds rf out hk hd =>
    simp only [Agg.step, hk, hd]
    split
    · assumption
    · cases rf with
      | true => rfl
      | false =>
        cases hx : readSerialsFromStorage d.date (file i d.id) with
        | error => rfl
        | ok l => cases out <;> rfl

theorem cancelled_stays (file : Text → Text → Option Text) (a : Agg) (x : KAct) (hc : a.cancelled = true) : (a.step file x).cancelled = true := by
  cases x with
  | tick now => simp only [Agg.step]; split <;> exact hc
  | signal => rfl
  | mkdirFails k => simp only [Agg.step]; split <;> first | exact hc | rfl
  | take k o =>
    simp only [Agg.step]
    split
    · split
      · exact hc
      · split <;> first | exact hc | rfl
    · exact hc
  | date k r o =>
    simp only [Agg.step]
    split
    · exact hc
    · rw [if_pos hc]; exact hc
    · exact hc

/-- **C44 (every error).** If at any moment of the run there is a signal, a directory or file cannot be made or opened, or a bin cannot be read, understood or written, success is not reported. -/
theorem C44_every_error (file : Text → Text → Option Text) (a : Agg) (before after : List KAct) (x : KAct) (h : Spec.Mishap file (a.run file before) x) : (a.run file (before ++ x :: after)).success = false := by
  have key : ∀ (acts : List KAct) (b : Agg), b.cancelled = true → (b.run file acts).cancelled = true := by
    intro acts
    induction acts with
    | nil => intro b hb; exact hb
    | cons y ys ih => intro b hb; exact ih _ (cancelled_stays file b y hb)
  have h1 : a.run file (before ++ x :: after) = ((a.run file before).step file x).run file after := by
    unfold Agg.run
    rw [List.foldl_append]
    rfl
  rw [h1]
  unfold Agg.success
  rw [key after _ (mishap_cancels h)]
  simp

/-- **C44 (errors).** When success is reported, no error was met and there was no signal. -/
theorem C44_errors_reported (file : Text → Text → Option Text) (prog : List IssuerDates) (threads : Nat) (files : Text → Option Text) (t0 : Int)
    (acts : List KAct) (hok : ((Agg.init prog threads files t0).run file acts).success = true) :
    ((Agg.init prog threads files t0).run file acts).errors = 0 ∧ .signal ∉ acts := by
  have key : ∀ (acts : List KAct) (a : Agg), (a.errors ≠ 0 → a.cancelled = true) →
      ((a.run file acts).errors ≠ 0 → (a.run file acts).cancelled = true) := by
    intro acts
    induction acts with
    | nil => intro a h; exact h
    | cons x xs ih => intro a h; exact ih _ (errors_step file a x h)
  have stays : ∀ (a : Agg) x, a.cancelled = true → (a.step file x).cancelled = true := by
    intro a x hc
    cases x with
    | tick now => simp only [Agg.step]; split <;> exact hc
    | signal => rfl
    | mkdirFails k => simp only [Agg.step]; split <;> first | exact hc | rfl
    | take k o =>
      simp only [Agg.step]
      split
      · split
        · exact hc
        · split <;> first | exact hc | rfl
      · exact hc
    | date k r o =>
      simp only [Agg.step]
      split
      · exact hc
      · rw [if_pos hc]; exact hc
      · exact hc
  have sig : ∀ (acts : List KAct) (a : Agg), (a.cancelled = true ∨ .signal ∈ acts) → (a.run file acts).cancelled = true := by
    intro acts
    induction acts with
    | nil =>
      intro a h
      rcases h with h | h
      · exact h
      · cases h
    | cons x xs ih =>
      intro a h
      refine ih _ ?_
      rcases h with h | h
      · exact Or.inl (stays a x h)
      · rcases List.mem_cons.1 h with h | h
        · subst h; exact Or.inl rfl
        · exact Or.inr h
  simp only [Agg.success, Bool.and_eq_true, Bool.not_eq_true'] at hok
  refine ⟨?_, fun hm => ?_⟩
  · apply Classical.byContradiction
    intro h
    have := key acts (Agg.init prog threads files t0) (fun h => absurd rfl h) h
    rw [hok.2] at this
    cases this
  · have := sig acts (Agg.init prog threads files t0) (Or.inr hm)
    rw [hok.2] at this
    cases this

/-- Where files are written. -/
structure Within (prog : List IssuerDates) (files : Text → Option Text) (a : Agg) : Prop where
  queue : ∀ u ∈ a.queue, u.1 ∈ prog.map Prod.fst
  busy : ∀ (k : Nat) (i : Text) (ds : List ExpDate) (e : Bool), a.workers[k]? = some (KWorker.busy i ds e) → i ∈ prog.map Prod.fst
  files : ∀ i, i ∉ prog.map Prod.fst → a.files i = files i

theorem within_fail {prog : List IssuerDates} {files : Text → Option Text} {a : Agg} (h : Within prog files a) (k : Nat) : Within prog files (a.fail k) := by
  refine ⟨h.queue, fun j i ds e hj => ?_, h.files⟩
  rcases get_set hj with ⟨_, h'⟩ | ⟨_, h'⟩
  · cases h'
  · exact h.busy j i ds e h'

theorem within_append {prog : List IssuerDates} {files : Text → Option Text} {a : Agg} (h : Within prog files a) {i : Text} (hi : i ∈ prog.map Prod.fst) (t : Text)
    (j : Text) (hj : j ∉ prog.map Prod.fst) : appendFile a.files i t j = files j := by
  unfold appendFile
  rw [if_neg (fun (e : j = i) => hj (e ▸ hi))]
  exact h.files j hj

theorem within_step {prog : List IssuerDates} {files : Text → Option Text} (file : Text → Text → Option Text) {a : Agg} (h : Within prog files a) (act : KAct) :
    Within prog files (a.step file act) := by
  have setw : ∀ (k : Nat) (w : KWorker), (∀ i ds e, w = .busy i ds e → i ∈ prog.map Prod.fst) →
      ∀ (j : Nat) (i : Text) (ds : List ExpDate) (e : Bool), (a.workers.set k w)[j]? = some (KWorker.busy i ds e) → i ∈ prog.map Prod.fst := by
    intro k w hw j i ds e hj
    rcases get_set hj with ⟨_, h'⟩ | ⟨_, h'⟩
    · exact hw _ _ _ h'.symm
    · exact h.busy j i ds e h'
  cases act with
  | tick now =>
    simp only [Agg.step]
    split
    · exact ⟨h.queue, h.busy, h.files⟩
    · exact h
  | signal => exact ⟨h.queue, h.busy, h.files⟩
  | mkdirFails k =>
    simp only [Agg.step]
    split
    · exact within_fail h k
    · exact h
  | take k o =>
    simp only [Agg.step]
    split
    · split
      · exact ⟨h.queue, setw k _ (fun _ _ _ e => by cases e), h.files⟩
      · rename_i i ds q hq
        have hi : i ∈ prog.map Prod.fst := h.queue (i, ds) (by rw [hq]; simp)
        have hq' : ∀ u ∈ q, u.1 ∈ prog.map Prod.fst := fun u hu => h.queue u (by rw [hq]; simp [hu])
        split
        · refine ⟨hq', setw k _ (fun _ _ _ e => by cases e; exact hi), fun j hj => ?_⟩
          show truncFile a.files i j = files j
          unfold truncFile
          rw [if_neg (fun (e : j = i) => hj (e ▸ hi))]
          exact h.files j hj
        · exact within_fail (a := { a with queue := q }) ⟨hq', h.busy, h.files⟩ k
    · exact h
  | date k r o =>
    simp only [Agg.step]
    split
    · refine ⟨h.queue, setw k _ (fun i ds e he => ?_), h.files⟩
      split at he <;> cases he
    · rename_i i d ds e hk
      have hi := h.busy k _ _ _ hk
      split
      · exact ⟨h.queue, setw k _ (fun _ _ _ e => by cases e), h.files⟩
      · split
        · exact ⟨h.queue, setw k _ (fun _ _ _ e => by cases e; exact hi), h.files⟩
        · split
          · exact within_fail h k
          · split
            · exact within_fail h k
            · cases o with
              | noticed n =>
                exact within_fail (a := { a with files := appendFile a.files i _ }) ⟨h.queue, h.busy, fun j hj => within_append h hi _ j hj⟩ k
              | fine =>
                simp only [Agg.write]
                split
                · exact within_fail h k
                · exact ⟨h.queue, setw k _ (fun _ _ _ e => by cases e; exact hi), fun j hj => within_append h hi _ j hj⟩
              | silent n =>
                simp only [Agg.write]
                split
                · exact within_fail h k
                · exact ⟨h.queue, setw k _ (fun _ _ _ e => by cases e; exact hi), fun j hj => within_append h hi _ j hj⟩
    · exact h

/-- **C44 (nothing else).** Files of issuers that are not enrolled are never touched, whatever happens. -/
theorem C44_no_other_files (file : Text → Text → Option Text) (prog : List IssuerDates) (threads : Nat) (files : Text → Option Text) (t0 : Int)
    (acts : List KAct) (i : Text) (hi : i ∉ prog.map Prod.fst) : ((Agg.init prog threads files t0).run file acts).files i = files i := by
  have key : ∀ (acts : List KAct) (a : Agg), Within prog files a → Within prog files (a.run file acts) := by
    intro acts
    induction acts with
    | nil => intro a h; exact h
    | cons x xs ih => intro a h; exact ih _ (within_step file h x)
  refine (key acts (Agg.init prog threads files t0) ⟨fun u hu => List.mem_map_of_mem hu, fun k i ds e h => ?_, fun _ _ => rfl⟩).files i hi
  cases get_replicate h

/-- Two issuers, three bins, two workers; one bin has expired. -/
def kDate (h : Int) : ExpDate := newExpDateFromTime (h * 3600)
def kFile (i d : Text) : Option Text :=
  if i = ['a'] ∧ d = (kDate 500000).id then some (writeSerialList (500000 * 3600) [[1], [2, 3]])
  else if i = ['b'] ∧ d = (kDate 500001).id then some (writeSerialList (500001 * 3600) [[4]])
  else none
def kProg : List IssuerDates := [(['a'], [kDate 400000, kDate 500000]), (['b'], [kDate 500001])]
def kActs : List KAct :=
  [.take 0 true, .take 1 true, .date 1 false .fine, .date 0 false .fine, .date 0 false .fine, .date 1 false .fine, .take 1 true, .date 0 false .fine, .take 0 true]

theorem kActs_result : ((Agg.init kProg 2 (fun _ => none) 1500000000000).run kFile kActs).success = true ∧
    ((Agg.init kProg 2 (fun _ => none) 1500000000000).run kFile kActs).silent = false ∧
    ((Agg.init kProg 2 (fun _ => none) 1500000000000).run kFile kActs).files ['a'] = some (writeSerialList (500000 * 3600) [[1], [2, 3]]) := by decide +kernel

/-- The directory cannot be made, or the second worker's file cannot be opened, or a signal comes in the middle. -/
example (after : List KAct) : ((Agg.init kProg 2 (fun _ => none) 1500000000000).run kFile (.mkdirFails 1 :: after)).success = false ∧
    ((Agg.init kProg 2 (fun _ => none) 1500000000000).run kFile ([.take 0 true] ++ .take 1 false :: after)).success = false ∧
    ((Agg.init kProg 2 (fun _ => none) 1500000000000).run kFile (kActs ++ .signal :: after)).success = false :=
  ⟨C44_every_error kFile _ [] after _ (.mkdir 1 (by decide)), C44_every_error kFile _ _ after _ (.opens 1 (by decide +kernel) (by decide +kernel)), C44_every_error kFile _ _ after _ .signal⟩

example : (kProg.map Prod.fst).Nodup ∧ (∀ u ∈ kProg, ∀ d ∈ u.2, d.isExpiredAt 1500000000000 = false → 0 ≤ d.date ∧ d.date < 2 ^ 64) ∧
    ∃ d ∈ [kDate 400000, kDate 500000], d.isExpiredAt ((Agg.init kProg 2 (fun _ => none) 1500000000000).run kFile kActs).clock = false := by
  refine ⟨by decide, by decide +kernel, kDate 500000, by simp, by decide +kernel⟩

/-- **C44 fails in the last flush:** the disk is full, nothing is written, success is reported. -/
theorem C44_last_flush_fails :
    let a := (Agg.init kProg 1 (fun _ => none) 1500000000000).run kFile
      [.take 0 true, .date 0 false .fine, .date 0 false (.silent 0), .date 0 false .fine, .take 0 true, .date 0 false (.silent 0), .date 0 false .fine, .take 0 true]
    a.success = true ∧ a.files ['a'] = some [] ∧ a.files ['b'] = some [] := by decide +kernel

/-- **C44 fails without workers** (`numThreads` 0 in the configuration): success, and no files. -/
theorem C44_no_workers_fails : (Agg.init kProg 0 (fun _ => none) 1500000000000).success = true ∧
    (Agg.init kProg 0 (fun _ => none) 1500000000000).files ['a'] = none := by decide +kernel

/-! ### each theorem applied -/

example := C45_no_overflow (fun i => decide (i = ['a'])) [⟨"issuer::a".toList, true, ["serials::2023-11-14-22::a".toList]⟩, ⟨"issuer::b".toList, true, ["serials::2023-11-14-22::b".toList]⟩]
  [(['a'], [⟨1699999200, 1700002799999, true⟩]), (['b'], [⟨1699999200, 1700002799999, true⟩])] (by decide +kernel)
example := C44_complete_partial kFile kProg (by decide) 2 (by decide) (fun _ => none) 1500000000000 kActs kActs_result.1 kActs_result.2.1 ['a'] [kDate 400000, kDate 500000] List.mem_cons_self (by decide +kernel)
example := C44_only_last_bin_cut kFile kProg (by decide) 2 (by decide) (fun _ => none) 1500000000000 kActs kActs_result.1 ['a'] [kDate 400000, kDate 500000] List.mem_cons_self
example := C44_errors_reported kFile kProg 2 (fun _ => none) 1500000000000 kActs kActs_result.1

end Verif.Props
