import Verif.Spec.Channel
import Verif.Props.Client
/-!
Properties C66 to C69: publishing filters.
-/
namespace Verif.Props
open Verif.Spec

/-! ### C66 -/

theorem linked_snoc (l : List KRec) (prev p : Text) (r : KRec) (i : Text) (hl : Linked prev l) (hp : ((l.map KRec.id).getLast?).getD (some prev) = some p)
    (h1 : r.incremental = some true) (h2 : r.parent = some p) (h3 : r.attachment.isSome = true) (h4 : r.id = some i) : Linked prev (l ++ [r]) := by
  induction l generalizing prev with
  | nil =>
    simp at hp
    subst hp
    exact ⟨h1, h2, h3, i, h4, trivial⟩
  | cons x rest ih =>
    obtain ⟨a, b, c, j, d, e⟩ := hl
    refine ⟨a, b, c, j, d, ih j e ?_⟩
    rw [List.map_cons] at hp
    cases hr : rest.map KRec.id with
    | nil => rw [hr] at hp; simpa [d] using hp
    | cons y ys =>
      rw [hr] at hp
      rw [List.getLast?_cons_cons] at hp
      rw [List.getLast?_eq_some_getLast (by simp)] at hp ⊢
      exact hp

theorem chain_snoc (l : List KRec) (p : Text) (r : KRec) (i : Text) (hl : IsChain l) (hp : (l.map KRec.id).getLast? = some (some p))
    (h1 : r.incremental = some true) (h2 : r.parent = some p) (h3 : r.attachment.isSome = true) (h4 : r.id = some i) : IsChain (l ++ [r]) := by
  cases l with
  | nil => exact hl.elim
  | cons x rest =>
    obtain ⟨a, b, j, c, d⟩ := hl
    refine ⟨a, b, j, c, linked_snoc rest j p r i d ?_ h1 h2 h3 h4⟩
    rw [List.map_cons] at hp
    cases hr : rest.map KRec.id with
    | nil => rw [hr] at hp; simpa [c] using hp
    | cons y ys =>
      rw [hr, List.getLast?_cons_cons] at hp
      rw [hp]
      rfl

theorem eq_of_nodup_map {α β : Type} (f : α → β) {l : List α} (hn : (l.map f).Nodup) {q r : α} (hq : q ∈ l) (hr : r ∈ l) (h : f q = f r) : q = r := by
  induction l with
  | nil => cases hr
  | cons x rest ih =>
    rw [List.map_cons, List.nodup_cons] at hn
    rcases List.mem_cons.1 hr with e | hr'
    · rcases List.mem_cons.1 hq with e' | hq'
      · rw [e, e']
      · exact absurd (List.mem_map.2 ⟨q, hq', by rw [← e]; exact h⟩) hn.1
    · rcases List.mem_cons.1 hq with e' | hq'
      · exact absurd (List.mem_map.2 ⟨r, hr', by rw [← e']; exact h.symm⟩) hn.1
      · exact ih hn.2 hq' hr'

theorem idsGet_some {recs : List KRec} {p : Text} {r : KRec} (h : idsGet recs p = some r) : r ∈ recs ∧ r.id = some p := by
  unfold idsGet at h
  exact ⟨List.mem_reverse.1 (List.mem_of_find?_eq_some h), by simpa using List.find?_some h⟩

theorem idsGet_nodup {recs : List KRec} (hn : (recs.map KRec.id).Nodup) {r : KRec} (hr : r ∈ recs) {i : Text} (hi : r.id = some i) : idsGet recs i = some r := by
  cases hg : idsGet recs i with
  | none =>
    unfold idsGet at hg
    have := List.find?_eq_none.1 hg r (List.mem_reverse.2 hr)
    simp [hi] at this
  | some q =>
    obtain ⟨hq, hqi⟩ := idsGet_some hg
    have hidx : q = r := by
      clear hg
      induction recs with
      | nil => cases hr
      | cons x rest ih =>
        rw [List.map_cons, List.nodup_cons] at hn
        rcases List.mem_cons.1 hr with e | hr'
        · rcases List.mem_cons.1 hq with e' | hq'
          · rw [e, e']
          · exact absurd (List.mem_map.2 ⟨q, hq', by rw [← e]; exact hqi.trans hi.symm⟩) hn.1
        · rcases List.mem_cons.1 hq with e' | hq'
          · exact absurd (List.mem_map.2 ⟨r, hr', by rw [← e']; exact hi.trans hqi.symm⟩) hn.1
          · exact ih hn.2 hr' hq'
    rw [hidx]

theorem climb_zero {recs : List KRec} {fuel : Nat} {p : Text} {r : KRec} (hg : idsGet recs p = some r) (hi : r.incremental ≠ some true) : climb recs fuel p = some 0 := by
  unfold climb
  rw [hg]
  dsimp only
  rw [if_neg hi]

theorem climb_succ {recs : List KRec} {fuel : Nat} {p q : Text} {r : KRec} {h : Nat} (hg : idsGet recs p = some r) (hi : r.incremental = some true) (hp : r.parent = some q)
    (hc : climb recs fuel q = some h) : climb recs (fuel + 1) p = some (h + 1) := by
  unfold climb
  rw [hg]
  dsimp only
  rw [if_pos hi, hp]
  dsimp only
  rw [hc]

/-- What a successful walk tells. -/
theorem climb_inv {recs : List KRec} {fuel : Nat} {p : Text} {h : Nat} (hc : climb recs fuel p = some h) :
    ∃ r, idsGet recs p = some r ∧ ((r.incremental ≠ some true ∧ h = 0) ∨ ∃ f q h', fuel = f + 1 ∧ r.incremental = some true ∧ r.parent = some q ∧ climb recs f q = some h' ∧ h = h' + 1) := by
  unfold climb at hc
  cases hg : idsGet recs p with
  | none => rw [hg] at hc; cases hc
  | some r =>
    rw [hg] at hc
    dsimp only at hc
    refine ⟨r, rfl, ?_⟩
    by_cases hi : r.incremental = some true
    · rw [if_pos hi] at hc
      cases fuel with
      | zero => cases hc
      | succ f =>
        cases hp : r.parent with
        | none => rw [hp] at hc; cases hc
        | some q =>
          rw [hp] at hc
          dsimp only at hc
          cases hq : climb recs f q with
          | none => rw [hq] at hc; cases hc
          | some h' =>
            rw [hq] at hc
            cases hc
            exact Or.inr ⟨f, q, h', rfl, hi, rfl, hq, rfl⟩
    · rw [if_neg hi] at hc
      cases hc
      exact Or.inl ⟨hi, rfl⟩

theorem climb_det {recs : List KRec} (h1 : Nat) : ∀ {f1 f2 : Nat} {p : Text} {h2 : Nat}, climb recs f1 p = some h1 → climb recs f2 p = some h2 → h1 = h2 := by
  induction h1 with
  | zero =>
    intro f1 f2 p h2 a b
    obtain ⟨r, hr, ha⟩ := climb_inv a
    obtain ⟨r', hr', hb⟩ := climb_inv b
    rw [hr] at hr'
    cases hr'
    rcases ha with ⟨ha, _⟩ | ⟨_, _, _, _, _, _, _, h⟩
    · rcases hb with ⟨_, hb⟩ | ⟨_, _, _, _, hb, _⟩
      · exact hb.symm
      · exact absurd hb ha
    · omega
  | succ h1 ih =>
    intro f1 f2 p h2 a b
    obtain ⟨r, hr, ha⟩ := climb_inv a
    obtain ⟨r', hr', hb⟩ := climb_inv b
    rw [hr] at hr'
    cases hr'
    rcases ha with ⟨_, ha⟩ | ⟨f, q, h', _, hi, hq, hc, he⟩
    · omega
    · rcases hb with ⟨hb, _⟩ | ⟨f', q', h'', _, _, hq', hc', he'⟩
      · exact absurd hi hb
      · rw [hq] at hq'
        cases hq'
        have : h1 = h' := by omega
        subst this
        have := ih hc hc'
        omega

theorem climb_path {recs : List KRec} (hw : ∀ r ∈ recs, wellFormed r = true) (h : Nat) : ∀ {fuel : Nat} {p : Text}, climb recs fuel p = some h →
    ∃ path, IsChain path ∧ path.length = h + 1 ∧ (path.map KRec.id).getLast? = some (some p) ∧ (∀ r ∈ path, r ∈ recs) ∧ (path.map KRec.id).Nodup ∧
      ∀ r ∈ path, ∃ i f h', r.id = some i ∧ climb recs f i = some h' ∧ h' < path.length := by
  induction h with
  | zero =>
    intro fuel p hc
    obtain ⟨r, hr, ha⟩ := climb_inv hc
    obtain ⟨hm, hid⟩ := idsGet_some hr
    rcases ha with ⟨hi, _⟩ | ⟨_, _, _, _, _, _, _, he⟩
    · have hwf := hw r hm
      unfold wellFormed at hwf
      simp only [Bool.and_eq_true] at hwf
      have hinc : r.incremental = some false := by
        cases hx : r.incremental with
        | none => rw [hx] at hwf; simp at hwf
        | some b => cases b with
          | true => exact absurd hx hi
          | false => rfl
      refine ⟨[r], ⟨hinc, hwf.1.2, p, hid, trivial⟩, rfl, by simp [hid], ?_, by simp, ?_⟩
      · intro x hx
        rw [List.mem_singleton.1 hx]; exact hm
      · intro x hx
        rw [List.mem_singleton.1 hx]
        exact ⟨p, fuel, 0, hid, hc, by simp⟩
    · omega
  | succ h ih =>
    intro fuel p hc
    obtain ⟨r, hr, ha⟩ := climb_inv hc
    obtain ⟨hm, hid⟩ := idsGet_some hr
    rcases ha with ⟨_, he⟩ | ⟨f, q, h', _, hi, hq, hcq, he⟩
    · omega
    · have : h' = h := by omega
      subst this
      obtain ⟨path, p1, p2, p3, p4, p5, p6⟩ := ih hcq
      have hwf := hw r hm
      unfold wellFormed at hwf
      simp only [Bool.and_eq_true] at hwf
      have hlen : (path ++ [r]).length = h' + 1 + 1 := by simp [p2]
      refine ⟨path ++ [r], chain_snoc path q r p p1 p3 hi hq hwf.1.2 hid, hlen, by simp [hid], ?_, ?_, ?_⟩
      · intro x hx
        rcases List.mem_append.1 hx with hx | hx
        · exact p4 x hx
        · rw [List.mem_singleton.1 hx]; exact hm
      · rw [List.map_append, List.nodup_append]
        refine ⟨p5, by simp, ?_⟩
        intro a ha b hb hab
        rw [List.map_cons, List.map_nil, List.mem_singleton] at hb
        obtain ⟨x, hx, rfl⟩ := List.mem_map.1 ha
        obtain ⟨i, f', k, hxi, hck, hlt⟩ := p6 x hx
        rw [hxi, hb, hid] at hab
        cases hab
        have := climb_det _ hck hc
        omega
      · intro x hx
        rcases List.mem_append.1 hx with hx | hx
        · obtain ⟨i, f', k, a, b, c⟩ := p6 x hx
          exact ⟨i, f', k, a, b, by rw [hlen]; omega⟩
        · rw [List.mem_singleton.1 hx]
          exact ⟨p, fuel, h' + 1, hid, hc, by rw [hlen]; omega⟩

theorem maxHeight_some {recs l : List KRec} {m : Nat} (h : maxHeight recs l = some m) :
    (∀ r ∈ l, ∃ i k, r.id = some i ∧ climb recs recs.length i = some k ∧ k ≤ m) ∧ (l ≠ [] → ∃ r ∈ l, ∃ i, r.id = some i ∧ climb recs recs.length i = some m) := by
  induction l generalizing m with
  | nil => exact ⟨by simp, fun h => absurd rfl h⟩
  | cons r rest ih =>
    unfold maxHeight at h
    cases hi : r.id with
    | none => rw [hi] at h; cases h
    | some i =>
      rw [hi] at h
      dsimp only at h
      cases hc : climb recs recs.length i with
      | none => rw [hc] at h; cases h
      | some k =>
        cases hm : maxHeight recs rest with
        | none => rw [hc, hm] at h; cases h
        | some m' =>
          rw [hc, hm] at h
          dsimp only at h
          cases h
          obtain ⟨a, b⟩ := ih hm
          constructor
          · intro x hx
            rcases List.mem_cons.1 hx with rfl | hx
            · exact ⟨i, k, hi, hc, by omega⟩
            · obtain ⟨i', k', c, d, e⟩ := a x hx
              exact ⟨i', k', c, d, by omega⟩
          · intro _
            by_cases hk : m' ≤ k
            · exact ⟨r, by simp, i, hi, by rw [hc]; congr 1; omega⟩
            · cases rest with
              | nil =>
                unfold maxHeight at hm
                cases hm
                omega
              | cons y ys =>
                obtain ⟨x, hx, i', e, g⟩ := b (by simp)
                exact ⟨x, by simp [List.mem_cons.1 hx], i', e, by rw [g]; congr 1; omega⟩

theorem maxHeight_of {recs l : List KRec} (h : ∀ r ∈ l, ∃ i k, r.id = some i ∧ climb recs recs.length i = some k) : ∃ m, maxHeight recs l = some m := by
  induction l with
  | nil => exact ⟨0, rfl⟩
  | cons r rest ih =>
    obtain ⟨i, k, hi, hc⟩ := h r (by simp)
    obtain ⟨m, hm⟩ := ih (fun x hx => h x (by simp [hx]))
    unfold maxHeight
    rw [hi]
    dsimp only
    rw [hc, hm]
    exact ⟨_, rfl⟩

theorem perm_of_nodup_subset_length {α : Type} [DecidableEq α] (l recs : List α) (hn : l.Nodup) (hs : ∀ x ∈ l, x ∈ recs) (hl : recs.length ≤ l.length) : l.Perm recs := by
  induction l generalizing recs with
  | nil =>
    have : recs = [] := List.length_eq_zero_iff.1 (by simpa using hl)
    rw [this]
  | cons a rest ih =>
    rw [List.nodup_cons] at hn
    have ha := hs a (by simp)
    have hp := List.perm_cons_erase ha
    refine List.Perm.trans (List.Perm.cons a (ih (recs.erase a) hn.2 ?_ ?_)) hp.symm
    · intro x hx
      have hne : x ≠ a := fun e => hn.1 (by rw [← e]; exact hx)
      exact (List.mem_erase_of_ne hne).2 (hs x (by simp [hx]))
    · have := hp.length_eq
      rw [List.length_cons] at this
      rw [List.length_cons] at hl
      omega

theorem linked_climb {recs : List KRec} (hn : (recs.map KRec.id).Nodup) (l : List KRec) : ∀ (prev : Text) (h : Nat), Linked prev l → (∀ r ∈ l, r ∈ recs) → (∀ fuel, h ≤ fuel → climb recs fuel prev = some h) →
    (∀ r ∈ l, ∃ i k, r.id = some i ∧ k ≤ h + l.length ∧ ∀ fuel, h + l.length ≤ fuel → climb recs fuel i = some k) ∧
    (l ≠ [] → ∃ r ∈ l, ∃ i, r.id = some i ∧ ∀ fuel, h + l.length ≤ fuel → climb recs fuel i = some (h + l.length)) := by
  induction l with
  | nil => intro prev h _ _ _; exact ⟨by simp, fun h => absurd rfl h⟩
  | cons r rest ih =>
    intro prev h hl hs hc
    obtain ⟨a, b, _, i, d, e⟩ := hl
    have hg := idsGet_nodup hn (hs r (by simp)) d
    have hci : ∀ fuel, h + 1 ≤ fuel → climb recs fuel i = some (h + 1) := by
      intro fuel hf
      obtain ⟨f, rfl⟩ : ∃ f, fuel = f + 1 := ⟨fuel - 1, by omega⟩
      exact climb_succ hg a b (hc f (by omega))
    obtain ⟨i1, i2⟩ := ih i (h + 1) e (fun x hx => hs x (by simp [hx])) hci
    constructor
    · intro x hx
      rcases List.mem_cons.1 hx with rfl | hx
      · exact ⟨i, h + 1, d, by simp, fun fuel hf => hci fuel (by rw [List.length_cons] at hf; omega)⟩
      · obtain ⟨j, k, p, q, s⟩ := i1 x hx
        exact ⟨j, k, p, by rw [List.length_cons]; omega, fun fuel hf => s fuel (by rw [List.length_cons] at hf; omega)⟩
    · intro _
      cases rest with
      | nil => exact ⟨r, by simp, i, d, fun fuel hf => hci fuel hf⟩
      | cons y ys =>
        obtain ⟨x, hx, j, p, q⟩ := i2 (by simp)
        refine ⟨x, by simp [List.mem_cons.1 hx], j, p, fun fuel hf => ?_⟩
        have := q fuel (by rw [List.length_cons] at hf; omega)
        rw [this]
        congr 1
        simp only [List.length_cons]
        omega

theorem linked_wf (l : List KRec) : ∀ prev, Linked prev l → ∀ r ∈ l, wellFormed r = true ∧ r.incremental = some true := by
  induction l with
  | nil => intro _ _ r hr; cases hr
  | cons x rest ih =>
    intro prev h r hr
    obtain ⟨a, b, c, i, d, e⟩ := h
    rcases List.mem_cons.1 hr with rfl | hr
    · exact ⟨by unfold wellFormed; rw [a, b, c, d]; rfl, a⟩
    · exact ih i e r hr

/-- **C66.** The check accepts the records of a channel iff there are none or they form a single chain, for any records: any parents, cycles, branches, missing fields, repeated identifiers. -/
theorem C66_accepts_iff (recs : List KRec) : verifyRecords recs = true ↔ recs = [] ∨ SingleChain recs := by
  constructor
  · intro h
    cases hr : recs with
    | nil => exact Or.inl rfl
    | cons x xs =>
      right
      rw [← hr]
      have hne : recs ≠ [] := by rw [hr]; simp
      unfold verifyRecords at h
      rw [hr] at h
      dsimp only at h
      rw [← hr] at h
      by_cases hw : recs.all wellFormed = true
      · rw [if_pos hw] at h
        by_cases hf : (recs.filter (fun r => r.incremental != some true)).length = 1
        · rw [if_pos hf] at h
          cases hm : maxHeight recs recs with
          | none => rw [hm] at h; cases h
          | some m =>
            rw [hm] at h
            have hlen : m + 1 = recs.length := by simpa using h
            obtain ⟨r, _, i, hi, hc⟩ := (maxHeight_some hm).2 hne
            obtain ⟨path, p1, p2, _, p4, p5, _⟩ := climb_path (List.all_eq_true.1 hw) m hc
            have hpn : path.Nodup := List.Pairwise.of_map KRec.id (fun a b hab e => hab (congrArg KRec.id e)) p5
            exact ⟨path, perm_of_nodup_subset_length path recs hpn p4 (by omega), p1, p5⟩
        · rw [if_neg hf] at h; cases h
      · rw [if_neg hw] at h; cases h
  · rintro (rfl | ⟨l, hp, hc, hn⟩)
    · rfl
    · cases l with
      | nil => exact hc.elim
      | cons r rest =>
        obtain ⟨a, b, i, c, d⟩ := hc
        have hlen := hp.length_eq
        have hnr : (recs.map KRec.id).Nodup := (hp.map KRec.id).nodup_iff.1 hn
        have hmem : ∀ x, x ∈ recs ↔ x ∈ r :: rest := fun x => hp.mem_iff.symm
        have hwf : ∀ x ∈ recs, wellFormed x = true := by
          intro x hx
          rcases List.mem_cons.1 ((hmem x).1 hx) with rfl | hx
          · unfold wellFormed; rw [a, b, c]; rfl
          · exact (linked_wf rest i d x hx).1
        have hg := idsGet_nodup hnr ((hmem r).2 (by simp)) c
        have h0 : ∀ fuel, 0 ≤ fuel → climb recs fuel i = some 0 := fun fuel _ => climb_zero hg (by rw [a]; simp)
        obtain ⟨k1, k2⟩ := linked_climb hnr rest i 0 d (fun x hx => (hmem x).2 (by simp [hx])) h0
        rw [List.length_cons] at hlen
        have hfuel : 0 + rest.length ≤ recs.length := by omega
        obtain ⟨m, hm⟩ := maxHeight_of (recs := recs) (l := recs) (by
          intro x hx
          rcases List.mem_cons.1 ((hmem x).1 hx) with rfl | hx
          · exact ⟨i, 0, c, h0 _ (by omega)⟩
          · obtain ⟨j, k, p, _, q⟩ := k1 x hx
            exact ⟨j, k, p, q _ hfuel⟩)
        obtain ⟨m1, m2⟩ := maxHeight_some hm
        have hmeq : m = rest.length := by
          have hge : rest.length ≤ m := by
            cases rest with
            | nil => simp
            | cons y ys =>
              obtain ⟨x, hx, j, p, q⟩ := k2 (by simp)
              obtain ⟨j', k', p', q', s'⟩ := m1 x ((hmem x).2 (List.mem_cons_of_mem _ hx))
              rw [p] at p'
              cases p'
              have := climb_det _ q' (q _ hfuel)
              omega
          have hle : m ≤ rest.length := by
            obtain ⟨x, hx, j, p, q⟩ := m2 (by intro e; rw [e] at hlen; simp at hlen)
            rcases List.mem_cons.1 ((hmem x).1 hx) with rfl | hx
            · rw [c] at p
              cases p
              have := climb_det _ q (h0 recs.length (by omega))
              omega
            · obtain ⟨j', k, p', le, q'⟩ := k1 x hx
              rw [p] at p'
              cases p'
              have := climb_det _ q (q' _ hfuel)
              omega
          omega
        have hfull : (recs.filter (fun r => r.incremental != some true)).length = 1 := by
          rw [← (hp.filter _).length_eq, List.filter_cons, if_pos (by rw [a]; rfl)]
          have : rest.filter (fun r => r.incremental != some true) = [] := by
            rw [List.filter_eq_nil_iff]
            intro x hx
            rw [(linked_wf rest i d x hx).2]
            simp
          rw [this]
          rfl
        unfold verifyRecords
        cases hr : recs with
        | nil => rfl
        | cons y ys =>
          dsimp only
          rw [← hr, if_pos (List.all_eq_true.2 hwf), if_pos hfull, hm]
          simp only [decide_eq_true_eq]
          omega

def kr (i : String) (inc : Bool) (par : Option String) (att : String) (name : String) : KRec := ⟨some i.toList, some inc, par.map String.toList, some att.toList, name.toList, none⟩

/-- A chain in another order is accepted; a branch, a cycle and a repeated identifier are not. -/
example : verifyRecords [kr "c" true (some "b") "3" "", kr "a" false none "1" "", kr "b" true (some "a") "2" ""] = true := by decide +kernel
example : verifyRecords [kr "a" false none "1" "", kr "b" true (some "a") "2" "", kr "c" true (some "a") "3" ""] = false := by decide +kernel
example : verifyRecords [kr "a" false none "1" "", kr "b" true (some "c") "2" "", kr "c" true (some "b") "3" ""] = false := by decide +kernel
example : verifyRecords [kr "a" false none "1" "", kr "b" true (some "a") "2" "", kr "b" true (some "b") "3" ""] = false := by decide +kernel

/-! ### sorting -/

theorem insertRec_perm (r : KRec) (l : List KRec) : (insertRec r l).Perm (r :: l) := by
  induction l with
  | nil => exact List.Perm.refl _
  | cons x rest ih =>
    unfold insertRec
    by_cases h : textLt x.name r.name = true
    · rw [if_pos h]
      exact (List.Perm.cons x ih).trans (List.Perm.swap r x rest)
    · rw [if_neg h]

theorem sortRecs_perm (l : List KRec) : (sortRecs l).Perm l := by
  induction l with
  | nil => exact List.Perm.refl _
  | cons r rest ih =>
    unfold sortRecs
    exact (insertRec_perm r _).trans (List.Perm.cons r ih)

theorem verifyRecords_perm {a b : List KRec} (hp : a.Perm b) : verifyRecords a = verifyRecords b := by
  have key : ∀ {a b : List KRec}, a.Perm b → verifyRecords a = true → verifyRecords b = true := by
    intro a b hp h
    rcases (C66_accepts_iff a).1 h with rfl | ⟨l, h1, h2, h3⟩
    · rw [List.nil_perm.1 hp]; rfl
    · exact (C66_accepts_iff b).2 (Or.inr ⟨l, h1.trans hp, h2, h3⟩)
  cases ha : verifyRecords a with
  | true => exact (key hp ha).symm
  | false =>
    cases hb : verifyRecords b with
    | false => rfl
    | true => rw [key hp.symm hb] at ha; cases ha

/-! ### C67 -/

theorem deltasOf_linked {nm : Nat → Bool → Text} {time : Text → Option Nat} {slug : Text} (runs : List Text) : ∀ {prev : Text} {recs : List KRec}, DeltasOf nm time slug prev runs recs → Linked prev recs := by
  induction runs with
  | nil =>
    intro prev recs h
    cases recs with
    | nil => trivial
    | cons r rest => exact h.elim
  | cons run rest ih =>
    intro prev recs h
    cases recs with
    | nil => exact h.elim
    | cons r rs =>
      obtain ⟨a, b, _, c, _, i, d, e⟩ := h
      exact ⟨a, b, by rw [c]; rfl, i, d, ih e⟩

theorem deltasOf_channel {nm : Nat → Bool → Text} {time : Text → Option Nat} {slug : Text} (runs : List Text) : ∀ {prev : Text} {recs : List KRec}, DeltasOf nm time slug prev runs recs → ∀ r ∈ recs, r.channel = some slug := by
  induction runs with
  | nil =>
    intro prev recs h r hr
    cases recs with
    | nil => cases hr
    | cons r rest => exact h.elim
  | cons run rest ih =>
    intro prev recs h r hr
    cases recs with
    | nil => cases hr
    | cons r' rs =>
      obtain ⟨_, _, c, _, _, i, _, e⟩ := h
      rcases List.mem_cons.1 hr with rfl | hr
      · exact c
      · exact ih e r hr

/-- What publishing deltas does to the collection, also when it stops early: it appends complete deltas for the first runs, chained to `prev`, and perhaps one record left without attachment. -/
theorem publishDeltas_spec (env : PubEnv) (db : RunDb) (slug : Text) (hf : FreshIds env.freshId) (runs : List Text) : ∀ (prev : Text) (st : List KRec),
    ∃ done todo new extra, runs = done ++ todo ∧ (publishDeltas env db slug runs prev st).2 = st ++ (new ++ extra) ∧ DeltasOf env.nameOf db.time slug prev done new ∧
      (new.map KRec.id).Nodup ∧ (∀ r ∈ new, ∀ s ∈ st, r.id ≠ s.id) ∧ (∀ r ∈ extra, r.attachment = none ∧ r.channel = some slug ∧ ∀ s ∈ st, s.id ≠ r.id) ∧ extra.length ≤ 1 ∧
      ((publishDeltas env db slug runs prev st).1 = true → todo = [] ∧ extra = []) ∧ (∀ x ∈ new, ∀ y ∈ extra, x.id ≠ y.id) := by
  induction runs with
  | nil =>
    intro prev st
    exact ⟨[], [], [], [], rfl, by simp [publishDeltas], trivial, by simp, by simp, by simp, by simp, fun _ => ⟨rfl, rfl⟩, by simp⟩
  | cons run rest ih =>
    intro prev st
    unfold publishDeltas
    by_cases hd : env.download run = true
    · rw [if_pos hd]
      cases ht : db.time run with
      | none => exact ⟨[], run :: rest, [], [], rfl, by simp, trivial, by simp, by simp, by simp, by simp, (fun (h : false = true) => by cases h), by simp⟩
      | some t =>
        dsimp only
        unfold publishRecord
        cases ho : env.outcome run with
        | ok =>
          dsimp only
          obtain ⟨done, todo, new, extra, h1, h2, h3, h4, h5, h6, h7, h8, h9⟩ := ih (env.freshId st) (st ++ [{ deltaRec env slug run t prev with id := some (env.freshId st) }])
          refine ⟨run :: done, todo, { deltaRec env slug run t prev with id := some (env.freshId st) } :: new, extra, by rw [h1]; rfl, by rw [h2]; simp, ?_, ?_, ?_, ?_, h7, h8, ?_⟩
          · exact ⟨rfl, rfl, rfl, rfl, ⟨t, ht, rfl⟩, env.freshId st, rfl, h3⟩
          · rw [List.map_cons, List.nodup_cons]
            refine ⟨?_, h4⟩
            intro hm
            obtain ⟨x, hx, he⟩ := List.mem_map.1 hm
            exact h5 x hx _ (List.mem_append.2 (Or.inr (List.mem_singleton.2 rfl))) he
          · intro r hr s hs
            rcases List.mem_cons.1 hr with rfl | hr
            · exact fun e => (hf st s hs).1 e.symm
            · exact h5 r hr s (by simp [hs])
          · intro r hr
            exact ⟨(h6 r hr).1, (h6 r hr).2.1, fun s hs => (h6 r hr).2.2 s (by simp [hs])⟩
          · intro x hx y hy
            rcases List.mem_cons.1 hx with rfl | hx
            · exact (h6 y hy).2.2 _ (List.mem_append.2 (Or.inr (List.mem_singleton.2 rfl)))
            · exact h9 x hx y hy
        | createFails => exact ⟨[], run :: rest, [], [], rfl, by simp, trivial, by simp, by simp, by simp, by simp, (fun (h : false = true) => by cases h), by simp⟩
        | attachFails => exact ⟨[], run :: rest, [], [], rfl, by simp, trivial, by simp, by simp, by simp, by simp, (fun (h : false = true) => by cases h), by simp⟩
        | leftBehind =>
          refine ⟨[], run :: rest, [], [{ deltaRec env slug run t prev with id := some (env.freshId st), attachment := none }], rfl, by simp, trivial, by simp, by simp, ?_, by simp, (fun (h : false = true) => by cases h), by simp⟩
          intro r hr
          rw [List.mem_singleton.1 hr]
          exact ⟨rfl, rfl, fun s hs => (hf st s hs).1⟩
    · rw [if_neg hd]
      exact ⟨[], run :: rest, [], [], rfl, by simp, trivial, by simp, by simp, by simp, by simp, (fun (h : false = true) => by cases h), by simp⟩

/-- The same, with different identifiers also for the record left behind. -/
theorem publishDeltas_spec' (env : PubEnv) (db : RunDb) (slug : Text) (hf : FreshIds env.freshId) (runs : List Text) : ∀ (prev : Text) (st : List KRec),
    ∃ done todo new extra, runs = done ++ todo ∧ (publishDeltas env db slug runs prev st).2 = st ++ (new ++ extra) ∧ DeltasOf env.nameOf db.time slug prev done new ∧
      (new.map KRec.id).Nodup ∧ (∀ r ∈ new, ∀ s ∈ st, r.id ≠ s.id) ∧ (∀ r ∈ extra, r.attachment = none ∧ r.channel = some slug ∧ ∀ s ∈ st, s.id ≠ r.id) ∧ extra.length ≤ 1 ∧
      ((new ++ extra).map KRec.id).Nodup := by
  intro prev st
  obtain ⟨done, todo, new, extra, h1, h2, h3, h4, h5, h6, h7, h8, h9⟩ := publishDeltas_spec env db slug hf runs prev st
  refine ⟨done, todo, new, extra, h1, h2, h3, h4, h5, h6, h7, ?_⟩
  rw [List.map_append, List.nodup_append]
  refine ⟨h4, ?_, ?_⟩
  · cases extra with
    | nil => simp
    | cons x xs =>
      cases xs with
      | nil => simp
      | cons y ys => simp at h7
  · intro a ha b hb hab
    obtain ⟨x, hx, rfl⟩ := List.mem_map.1 ha
    obtain ⟨y, hy, rfl⟩ := List.mem_map.1 hb
    exact h9 x hx y hy hab

theorem recordsOf_append (slug : Text) (a b : List KRec) : recordsOf slug (a ++ b) = recordsOf slug a ++ recordsOf slug b := List.filter_append _ _

theorem recordsOf_all {slug : Text} {l : List KRec} (h : ∀ r ∈ l, r.channel = some slug) : recordsOf slug l = l := by
  unfold recordsOf
  rw [List.filter_eq_self]
  intro r hr
  rw [h r hr]
  simp

theorem getLast?_append_id {l : List KRec} {i : Option Text} (h : l.getLast?.map KRec.id = some i) : (l.map KRec.id).getLast? = some i := by
  rw [List.getLast?_map]
  exact h

/-- A chain can be continued. -/
theorem linked_append (l new : List KRec) : ∀ (prev p : Text), Linked prev l → ((l.map KRec.id).getLast?).getD (some prev) = some p → Linked p new → Linked prev (l ++ new) := by
  induction l with
  | nil =>
    intro prev p _ hp hn
    simp at hp
    subst hp
    exact hn
  | cons x rest ih =>
    intro prev p hl hp hn
    obtain ⟨a, b, c, j, d, e⟩ := hl
    refine ⟨a, b, c, j, d, ih j p e ?_ hn⟩
    rw [List.map_cons] at hp
    cases hr : rest.map KRec.id with
    | nil => rw [hr] at hp; simpa [d] using hp
    | cons y ys =>
      rw [hr] at hp
      rw [List.getLast?_cons_cons] at hp
      rw [List.getLast?_eq_some_getLast (by simp)] at hp ⊢
      exact hp

theorem chain_append (l new : List KRec) (p : Text) (hl : IsChain l) (hp : (l.map KRec.id).getLast? = some (some p)) (hn : Linked p new) : IsChain (l ++ new) := by
  cases l with
  | nil => exact hl.elim
  | cons x rest =>
    obtain ⟨a, b, j, c, d⟩ := hl
    refine ⟨a, b, j, c, linked_append rest new j p d ?_ hn⟩
    rw [List.map_cons] at hp
    cases hr : rest.map KRec.id with
    | nil => rw [hr] at hp; simpa [c] using hp
    | cons y ys =>
      rw [hr, List.getLast?_cons_cons] at hp
      rw [hp]
      rfl

theorem clear_sub (env : PubEnv) (slug : Text) (incr : Bool) (l : List KRec) : ∀ (st : List KRec), ∀ x ∈ (clearLoop env slug incr l st).2, x ∈ st := by
  induction l with
  | nil => intro st x hx; exact hx
  | cons r rest ih =>
    intro st x hx
    unfold clearLoop at hx
    by_cases h1 : ofChannel slug r = true
    · rw [if_pos h1] at hx
      cases h2 : r.incremental with
      | none => rw [h2] at hx; exact hx
      | some b =>
        rw [h2] at hx
        dsimp only at hx
        by_cases h3 : b = incr
        · rw [if_pos h3] at hx
          cases h4 : r.id with
          | none => rw [h4] at hx; exact hx
          | some i =>
            rw [h4] at hx
            dsimp only at hx
            by_cases h5 : env.deleteOk i = true
            · rw [if_pos h5] at hx
              exact (List.mem_filter.1 (ih _ x hx)).1
            · rw [if_neg h5] at hx; exact hx
        · rw [if_neg h3] at hx; exact ih _ x hx
    · rw [if_neg h1] at hx; exact ih _ x hx

theorem clear_ok (env : PubEnv) (slug : Text) (incr : Bool) (l : List KRec) : ∀ (st st' : List KRec), clearLoop env slug incr l st = (true, st') →
    ∀ r ∈ l, ofChannel slug r = true → ∃ b, r.incremental = some b ∧ (b = incr → r ∉ st') := by
  induction l with
  | nil => intro st st' _ r hr; cases hr
  | cons q rest ih =>
    intro st st' h r hr hc
    unfold clearLoop at h
    by_cases h1 : ofChannel slug q = true
    · rw [if_pos h1] at h
      cases h2 : q.incremental with
      | none => rw [h2] at h; cases h
      | some b =>
        rw [h2] at h
        dsimp only at h
        by_cases h3 : b = incr
        · rw [if_pos h3] at h
          cases h4 : q.id with
          | none => rw [h4] at h; cases h
          | some i =>
            rw [h4] at h
            dsimp only at h
            by_cases h5 : env.deleteOk i = true
            · rw [if_pos h5] at h
              rcases List.mem_cons.1 hr with e | hr
              · refine ⟨b, by rw [e, h2], fun _ hm => ?_⟩
                have hx := clear_sub env slug incr rest (st.filter (fun x => decide (x.id ≠ some i))) r (by rw [h]; exact hm)
                have := (List.mem_filter.1 hx).2
                rw [e, h4] at this
                simp at this
              · exact ih _ _ h r hr hc
            · rw [if_neg h5] at h; cases h
        · rw [if_neg h3] at h
          rcases List.mem_cons.1 hr with e | hr
          · exact ⟨b, by rw [e, h2], fun hb => absurd hb h3⟩
          · exact ih _ _ h r hr hc
    · rw [if_neg h1] at h
      rcases List.mem_cons.1 hr with e | hr
      · rw [e] at hc; exact absurd hc h1
      · exact ih _ _ h r hr hc

theorem clear_other (env : PubEnv) (slug other : Text) (incr : Bool) (l : List KRec) : ∀ (st : List KRec),
    (∀ r ∈ l, ∀ x ∈ st, ofChannel slug r = true → ofChannel other x = true → r.id ≠ x.id) → recordsOf other (clearLoop env slug incr l st).2 = recordsOf other st := by
  induction l with
  | nil => intro st _; rfl
  | cons q rest ih =>
    intro st h
    have hrest : ∀ r ∈ rest, ∀ x ∈ st, ofChannel slug r = true → ofChannel other x = true → r.id ≠ x.id := fun r hr => h r (by simp [hr])
    unfold clearLoop
    by_cases h1 : ofChannel slug q = true
    · rw [if_pos h1]
      cases h2 : q.incremental with
      | none => rfl
      | some b =>
        dsimp only
        by_cases h3 : b = incr
        · rw [if_pos h3]
          cases h4 : q.id with
          | none => rfl
          | some i =>
            dsimp only
            by_cases h5 : env.deleteOk i = true
            · rw [if_pos h5, ih _ (fun r hr x hx => hrest r hr x (List.mem_filter.1 hx).1)]
              unfold recordsOf
              rw [List.filter_filter]
              apply List.filter_congr
              intro x hx
              by_cases hox : x.channel.getD "default".toList = other
              · have hxo : ofChannel other x = true := by unfold ofChannel; exact decide_eq_true hox
                have hne := h q (by simp) x hx h1 hxo
                rw [h4] at hne
                have hne' : x.id ≠ some i := fun e => hne e.symm
                rw [decide_eq_true hox, decide_eq_true hne']
                rfl
              · rw [decide_eq_false hox]
                rfl
            · rw [if_neg h5]
        · rw [if_neg h3]; exact ih st hrest
    · rw [if_neg h1]; exact ih st hrest

/-- **C67 and C68, full filter.** Publishing a full filter of a run, if it succeeds, leaves exactly one record in the channel, whatever was there: a full filter with the attachment of that run. -/
theorem C67_full_replaces (env : PubEnv) (db : RunDb) (slug run : Text) (existing st st' : List KRec) (hr : runTask env db slug existing (.full run) st = (true, st')) :
    ∃ r t, recordsOf slug st' = [r] ∧ r.incremental = some false ∧ r.attachment = some (run ++ '-' :: slug ++ ".filter".toList) ∧ r.channel = some slug ∧ r.id.isSome = true ∧
      db.time run = some t ∧ r.name = env.nameOf t true ∧ verifyRecords (recordsOf slug st') = true := by
  unfold runTask at hr
  dsimp only at hr
  by_cases hd : env.download run = true
  · rw [if_pos hd] at hr
    cases h1 : clearLoop env slug false st st with
    | mk b1 st1 =>
      rw [h1] at hr
      cases b1 with
      | false => cases hr
      | true =>
        dsimp only at hr
        cases h2 : clearLoop env slug true st1 st1 with
        | mk b2 st2 =>
          rw [h2] at hr
          cases b2 with
          | false => cases hr
          | true =>
            dsimp only at hr
            cases ht : db.time run with
            | none => rw [ht] at hr; cases hr
            | some t =>
              rw [ht] at hr
              dsimp only at hr
              have hempty : recordsOf slug st2 = [] := by
                unfold recordsOf
                rw [List.filter_eq_nil_iff]
                intro x hx hch
                have hch' : ofChannel slug x = true := hch
                have hx1 : x ∈ st1 := clear_sub env slug true st1 st1 x (by rw [h2]; exact hx)
                have hx0 : x ∈ st := clear_sub env slug false st st x (by rw [h1]; exact hx1)
                obtain ⟨b, hb, hb'⟩ := clear_ok env slug true st1 st1 st2 h2 x hx1 hch'
                obtain ⟨c, hc, hc'⟩ := clear_ok env slug false st st st1 h1 x hx0 hch'
                rw [hb] at hc
                cases hc
                cases b with
                | true => exact hb' rfl hx
                | false => exact hc' rfl hx1
              unfold publishRecord at hr
              cases ho : env.outcome run with
              | ok =>
                rw [ho] at hr
                dsimp only at hr
                rw [Prod.mk.injEq] at hr
                have hrec : recordsOf slug st' = [{ fullRec env slug run t with id := some (env.freshId st2) }] := by
                  rw [← hr.2, recordsOf_append, hempty, recordsOf_all]
                  · rfl
                  · intro r hr
                    rw [List.mem_singleton.1 hr]
                    rfl
                refine ⟨_, t, hrec, rfl, rfl, rfl, rfl, rfl, rfl, ?_⟩
                rw [hrec]
                refine (C66_accepts_iff _).2 (Or.inr ⟨_, List.Perm.refl _, ⟨rfl, rfl, env.freshId st2, rfl, trivial⟩, by simp⟩)
              | createFails => rw [ho] at hr; cases hr
              | attachFails => rw [ho] at hr; cases hr
              | leftBehind => rw [ho] at hr; cases hr
  · rw [if_neg hd] at hr; cases hr

/-! ### C68 -/

theorem optMap_some {α β : Type} (f : α → Option β) (l : List α) : ∀ {r : List β}, optMap f l = some r → r.length = l.length ∧ (∀ a ∈ l, ∃ b ∈ r, f a = some b) ∧ (∀ b ∈ r, ∃ a ∈ l, f a = some b) ∧ r.getLast? = l.getLast?.bind f := by
  induction l with
  | nil => intro r h; cases h; exact ⟨rfl, by simp, by simp, rfl⟩
  | cons a rest ih =>
    intro r h
    unfold optMap at h
    cases ha : f a with
    | none => rw [ha] at h; cases h
    | some b =>
      cases hr : optMap f rest with
      | none => rw [ha, hr] at h; cases h
      | some l' =>
        rw [ha, hr] at h
        dsimp only at h
        cases h
        obtain ⟨i1, i2, i3, i4⟩ := ih hr
        refine ⟨by simp [i1], ?_, ?_, ?_⟩
        · intro x hx
          rcases List.mem_cons.1 hx with rfl | hx
          · exact ⟨b, by simp, ha⟩
          · obtain ⟨y, hy, e⟩ := i2 x hx
            exact ⟨y, by simp [hy], e⟩
        · intro y hy
          rcases List.mem_cons.1 hy with rfl | hy
          · exact ⟨a, by simp, ha⟩
          · obtain ⟨x, hx, e⟩ := i3 y hy
            exact ⟨x, by simp [hx], e⟩
        · cases rest with
          | nil =>
            cases l' with
            | nil => simp [ha]
            | cons z zs => simp at i1
          | cons y ys =>
            cases l' with
            | nil => simp at i1
            | cons z zs =>
              rw [List.getLast?_cons_cons, List.getLast?_cons_cons]
              exact i4

theorem splitRuns_some (cut : Nat × Nat) (l : List Text) : ∀ {o n : List Text}, splitRuns cut l = some (o, n) →
    (∀ x ∈ l, ∃ k, parseRun x = some k) ∧ (∀ x, x ∈ n ↔ x ∈ l ∧ ∃ k, parseRun x = some k ∧ pairLt cut k = true) ∧ (∀ x, x ∈ o ↔ x ∈ l ∧ ∃ k, parseRun x = some k ∧ pairLt cut k = false) ∧ n.Sublist l := by
  induction l with
  | nil =>
    intro o n h
    cases h
    exact ⟨by simp, by simp, by simp, List.Sublist.refl _⟩
  | cons r rest ih =>
    intro o n h
    unfold splitRuns at h
    cases hp : parseRun r with
    | none => rw [hp] at h; cases h
    | some k =>
      cases hs : splitRuns cut rest with
      | none => rw [hp, hs] at h; cases h
      | some on =>
        obtain ⟨o', n'⟩ := on
        rw [hp, hs] at h
        dsimp only at h
        obtain ⟨i1, i2, i3, i4⟩ := ih hs
        have hall : ∀ x ∈ r :: rest, ∃ k, parseRun x = some k := by
          intro x hx
          rcases List.mem_cons.1 hx with rfl | hx
          · exact ⟨k, hp⟩
          · exact i1 x hx
        by_cases hk : pairLt cut k = true
        · rw [if_pos hk, Option.some.injEq, Prod.mk.injEq] at h
          obtain ⟨e1, e2⟩ := h
          subst e1 e2
          refine ⟨hall, ?_, ?_, i4.cons_cons r⟩
          · intro x
            rw [List.mem_cons, List.mem_cons, i2]
            constructor
            · rintro (rfl | ⟨h, h'⟩)
              · exact ⟨Or.inl rfl, k, hp, hk⟩
              · exact ⟨Or.inr h, h'⟩
            · rintro ⟨rfl | h, h'⟩
              · exact Or.inl rfl
              · exact Or.inr ⟨h, h'⟩
          · intro x
            rw [List.mem_cons, i3]
            constructor
            · rintro ⟨h, h'⟩
              exact ⟨Or.inr h, h'⟩
            · rintro ⟨rfl | h, h'⟩
              · obtain ⟨k', a, b⟩ := h'
                rw [hp] at a
                cases a
                rw [hk] at b
                cases b
              · exact ⟨h, h'⟩
        · rw [if_neg hk, Option.some.injEq, Prod.mk.injEq] at h
          obtain ⟨e1, e2⟩ := h
          subst e1 e2
          refine ⟨hall, ?_, ?_, i4.cons r⟩
          · intro x
            rw [List.mem_cons, i2]
            constructor
            · rintro ⟨h, h'⟩
              exact ⟨Or.inr h, h'⟩
            · rintro ⟨rfl | h, h'⟩
              · obtain ⟨k', a, b⟩ := h'
                rw [hp] at a
                cases a
                exact absurd b hk
              · exact ⟨h, h'⟩
          · intro x
            rw [List.mem_cons, List.mem_cons, i3]
            constructor
            · rintro (rfl | ⟨h, h'⟩)
              · exact ⟨Or.inl rfl, k, hp, by simpa using hk⟩
              · exact ⟨Or.inr h, h'⟩
            · rintro ⟨rfl | h, h'⟩
              · exact Or.inl rfl
              · exact Or.inr ⟨h, h'⟩

theorem insertRun_perm (r : Text) (l : List Text) : (insertRun r l).Perm (r :: l) := by
  induction l with
  | nil => exact List.Perm.refl _
  | cons x rest ih =>
    unfold insertRun
    cases ha : parseRun r with
    | none => exact List.Perm.refl _
    | some a =>
      cases hb : parseRun x with
      | none => exact List.Perm.refl _
      | some b =>
        dsimp only
        by_cases h : pairLt b a = true
        · rw [if_pos h]
          exact (List.Perm.cons x ih).trans (List.Perm.swap r x rest)
        · rw [if_neg h]

theorem sortRuns_perm (l : List Text) : (sortRuns l).Perm l := by
  induction l with
  | nil => exact List.Perm.refl _
  | cons r rest ih =>
    unfold sortRuns
    exact (insertRun_perm r _).trans (List.Perm.cons r ih)

theorem pairLt_iff (a b : Nat × Nat) : pairLt a b = true ↔ a.1 < b.1 ∨ (a.1 = b.1 ∧ a.2 < b.2) := by
  unfold pairLt
  simp

theorem pairLt_false_iff (a b : Nat × Nat) : pairLt a b = false ↔ b.1 < a.1 ∨ (b.1 = a.1 ∧ b.2 ≤ a.2) := by
  have h := pairLt_iff a b
  cases hp : pairLt a b with
  | false =>
    rw [hp] at h
    have : ¬(a.1 < b.1 ∨ (a.1 = b.1 ∧ a.2 < b.2)) := fun x => by cases h.2 x
    refine ⟨fun _ => ?_, fun _ => rfl⟩
    omega
  | true =>
    have := h.1 hp
    refine ⟨fun (x : true = false) => (by cases x), fun x => ?_⟩
    omega

/-- Not later in the order of runs. -/
def RunNotAfter (x y : Text) : Prop := ∃ a b, parseRun x = some a ∧ parseRun y = some b ∧ pairLt b a = false

theorem insertRun_sorted (r : Text) (l : List Text) (hr : ∃ k, parseRun r = some k) (hl : ∀ x ∈ l, ∃ k, parseRun x = some k) (h : l.Pairwise RunNotAfter) : (insertRun r l).Pairwise RunNotAfter := by
  induction l with
  | nil => exact List.pairwise_singleton _ _
  | cons x rest ih =>
    rw [List.pairwise_cons] at h
    obtain ⟨a, ha⟩ := hr
    obtain ⟨b, hb⟩ := hl x (by simp)
    unfold insertRun
    rw [ha, hb]
    dsimp only
    by_cases hx : pairLt b a = true
    · rw [if_pos hx, List.pairwise_cons]
      refine ⟨?_, ih (fun y hy => hl y (by simp [hy])) h.2⟩
      intro y hy
      rcases List.mem_cons.1 ((insertRun_perm r rest).mem_iff.1 hy) with rfl | hy
      · exact ⟨b, a, hb, ha, by rw [pairLt_false_iff]; rw [pairLt_iff] at hx; omega⟩
      · exact h.1 y hy
    · rw [if_neg hx, List.pairwise_cons, List.pairwise_cons]
      refine ⟨?_, h⟩
      have hx' : pairLt b a = false := by simpa using hx
      rw [pairLt_false_iff] at hx'
      intro y hy
      rcases List.mem_cons.1 hy with rfl | hy
      · exact ⟨a, b, ha, hb, by simpa using hx⟩
      · obtain ⟨b', c, e1, e2, e3⟩ := h.1 y hy
        rw [hb] at e1
        cases e1
        refine ⟨a, c, ha, e2, ?_⟩
        rw [pairLt_false_iff] at e3 ⊢
        omega

theorem sortRuns_sorted (l : List Text) (hl : ∀ x ∈ l, ∃ k, parseRun x = some k) : (sortRuns l).Pairwise RunNotAfter := by
  induction l with
  | nil => exact List.Pairwise.nil
  | cons r rest ih =>
    exact insertRun_sorted r _ (hl r (by simp)) (fun x hx => hl x (by simp [(sortRuns_perm rest).mem_iff.1 hx])) (ih (fun x hx => hl x (by simp [hx])))

theorem dropWhile_dash_append (a b : Text) (h : ∀ c ∈ a, c ≠ '-') : (a ++ '-' :: b).dropWhile (fun c => decide (c ≠ '-')) = '-' :: b := by
  induction a with
  | nil => simp
  | cons x rest ih =>
    rw [List.cons_append, List.dropWhile_cons, if_pos (by simpa using h x (by simp))]
    exact ih (fun c hc => h c (by simp [hc]))

/-- The run is recovered from a file name, if the channel's name has no dash (`default`, `compat`, … do not). -/
theorem rsplitDash_file (run tail : Text) (h : ∀ c ∈ tail, c ≠ '-') : rsplitDash (run ++ '-' :: tail) = run := by
  unfold rsplitDash
  have : (run ++ '-' :: tail).reverse = tail.reverse ++ '-' :: run.reverse := by simp
  rw [this]
  have h2 := dropWhile_dash_append tail.reverse run.reverse (fun c hc => h c (List.mem_reverse.1 hc))
  have h3 : (tail.reverse ++ '-' :: run.reverse).dropWhile (· ≠ '-') = '-' :: run.reverse := h2
  rw [h3]
  simp

/-- **C68.** When deltas are chosen, the channel is accepted, and with `cut` the run of the record last by name: the deltas are exactly all runs in the bucket after it, in increasing order, each as often as in the bucket (once), all complete
and valid, with times that do not decrease; and the run of every published record is in the bucket and not after `cut`. -/
theorem C68_deltas (existing : List KRec) (db : RunDb) (maxAge : Nat) (runs : List Text) (h : determinePublish existing db maxAge = some (.deltas runs)) :
    existing ≠ [] ∧ verifyRecords existing = true ∧ ∃ last tip cut, existing.getLast? = some last ∧ recordRun last = some tip ∧ parseRun tip = some cut ∧
      (∀ x, x ∈ runs ↔ x ∈ db.ids ∧ ∃ k, parseRun x = some k ∧ pairLt cut k = true) ∧ (∀ x, runs.count x ≤ db.ids.count x) ∧ runs.Pairwise RunNotAfter ∧
      (∀ x ∈ runs, db.ready x = true ∧ db.valid x = true ∧ ∃ t, db.time x = some t) ∧
      (∀ r ∈ existing, ∃ x ∈ db.ids, recordRun r = some x ∧ ∃ k, parseRun x = some k ∧ pairLt cut k = false) := by
  unfold determinePublish at h
  cases hnew : db.ids.getLast? with
  | none => rw [hnew] at h; cases h
  | some newest =>
    rw [hnew] at h
    dsimp only at h
    by_cases he : existing = []
    · rw [if_pos he] at h; cases h
    · rw [if_neg he] at h
      by_cases hv : verifyRecords existing = false
      · rw [if_pos hv] at h; cases h
      · rw [if_neg hv] at h
        cases hruns : optMap recordRun existing with
        | none => rw [hruns] at h; cases h
        | some rs =>
          rw [hruns] at h
          dsimp only at h
          obtain ⟨_, o2, _, o4⟩ := optMap_some recordRun existing hruns
          cases hcut : rs.getLast?.bind parseRun with
          | none => rw [hcut] at h; cases h
          | some cut =>
            rw [hcut] at h
            dsimp only at h
            cases hsp : splitRuns cut db.ids with
            | none => rw [hsp] at h; cases h
            | some on =>
              obtain ⟨old, new⟩ := on
              rw [hsp] at h
              dsimp only at h
              obtain ⟨s1, s2, s3, s4⟩ := splitRuns_some cut db.ids hsp
              by_cases hall : rs.all (fun r => old.contains r) = true
              · rw [if_pos hall] at h
                unfold verifyRuns at h
                by_cases hrv : (new.all db.ready && new.all db.valid) = true
                · rw [if_pos hrv] at h
                  cases hts : optMap db.time (sortRuns new) with
                  | none => rw [hts] at h; cases h
                  | some ts =>
                    rw [hts] at h
                    dsimp only at h
                    obtain ⟨_, t2, _, _⟩ := optMap_some db.time (sortRuns new) hts
                    by_cases hnd : nonDecreasing ts = true
                    · rw [if_pos hnd] at h
                      dsimp only at h
                      have hres : sortRuns new = runs := by
                        cases h1 : (minText rs).bind db.time with
                        | none => rw [h1] at h; cases h
                        | some e =>
                          cases h2 : db.time newest with
                          | none => rw [h1, h2] at h; cases h
                          | some n =>
                            rw [h1, h2] at h
                            dsimp only at h
                            by_cases hage : e + maxAge ≤ n
                            · rw [if_pos hage] at h; cases h
                            · rw [if_neg hage] at h
                              cases h
                              rfl
                      subst hres
                      have hmem : ∀ x, x ∈ sortRuns new ↔ x ∈ new := fun x => (sortRuns_perm new).mem_iff
                      rw [o4] at hcut
                      obtain ⟨last, hlast⟩ : ∃ last, existing.getLast? = some last := ⟨existing.getLast he, List.getLast?_eq_some_getLast he⟩
                      rw [hlast] at hcut
                      simp only [Option.bind_some] at hcut
                      cases htip : recordRun last with
                      | none => rw [htip] at hcut; cases hcut
                      | some tip =>
                        rw [htip] at hcut
                        simp only [Option.bind_some] at hcut
                        rw [Bool.and_eq_true, List.all_eq_true, List.all_eq_true] at hrv
                        refine ⟨he, by simpa using hv, last, tip, cut, hlast, htip, hcut, ?_, ?_, ?_, ?_, ?_⟩
                        · intro x
                          rw [hmem, s2]
                        · intro x
                          rw [(sortRuns_perm new).count_eq]
                          exact s4.count_le x
                        · exact sortRuns_sorted new (fun x hx => s1 x ((s2 x).1 hx).1)
                        · intro x hx
                          obtain ⟨t, _, ht⟩ := t2 x hx
                          exact ⟨hrv.1 x ((hmem x).1 hx), hrv.2 x ((hmem x).1 hx), t, ht⟩
                        · intro r hr
                          obtain ⟨x, hx, hxr⟩ := o2 r hr
                          have := List.all_eq_true.1 hall x hx
                          have hxo : x ∈ old := by simpa using this
                          obtain ⟨a, k, b, c⟩ := (s3 x).1 hxo
                          exact ⟨x, a, hxr, k, b, c⟩
                    · rw [if_neg hnd] at h; cases h
                · rw [if_neg hrv] at h; cases h
              · rw [if_neg hall] at h; cases h

/-- **C68.** If it is not deltas, it is a full filter of the newest run. -/
theorem C68_full_newest (existing : List KRec) (db : RunDb) (maxAge : Nat) (run : Text) (h : determinePublish existing db maxAge = some (.full run)) : db.ids.getLast? = some run := by
  unfold determinePublish at h
  cases hnew : db.ids.getLast? with
  | none => rw [hnew] at h; cases h
  | some newest =>
    rw [hnew] at h
    dsimp only at h
    repeat' (split at h <;> first | (cases h; rfl) | (cases h; done) | skip)

theorem optMap_of {α β : Type} (f : α → Option β) (l : List α) (h : ∀ a ∈ l, ∃ b, f a = some b) : ∃ r, optMap f l = some r := by
  induction l with
  | nil => exact ⟨[], rfl⟩
  | cons a rest ih =>
    obtain ⟨b, hb⟩ := h a (by simp)
    obtain ⟨r, hr⟩ := ih (fun x hx => h x (by simp [hx]))
    unfold optMap
    rw [hb, hr]
    exact ⟨_, rfl⟩

theorem splitRuns_of (cut : Nat × Nat) (l : List Text) (h : ∀ x ∈ l, ∃ k, parseRun x = some k) : ∃ o n, splitRuns cut l = some (o, n) := by
  induction l with
  | nil => exact ⟨[], [], rfl⟩
  | cons r rest ih =>
    obtain ⟨k, hk⟩ := h r (by simp)
    obtain ⟨o, n, hon⟩ := ih (fun x hx => h x (by simp [hx]))
    unfold splitRuns
    rw [hk, hon]
    dsimp only
    by_cases hc : pairLt cut k = true
    · rw [if_pos hc]; exact ⟨_, _, rfl⟩
    · rw [if_neg hc]; exact ⟨_, _, rfl⟩

theorem nonDecreasing_of (time : Text → Option Nat) (l : List Text) (h : l.Pairwise (fun x y => ∀ a b, time x = some a → time y = some b → a ≤ b)) : ∀ {ts : List Nat}, optMap time l = some ts → nonDecreasing ts = true := by
  induction l with
  | nil => intro ts hts; cases hts; rfl
  | cons x rest ih =>
    intro ts hts
    rw [List.pairwise_cons] at h
    unfold optMap at hts
    cases hx : time x with
    | none => rw [hx] at hts; cases hts
    | some a =>
      cases hr : optMap time rest with
      | none => rw [hx, hr] at hts; cases hts
      | some ts' =>
        rw [hx, hr] at hts
        dsimp only at hts
        cases hts
        have ih' := ih h.2 hr
        cases ts' with
        | nil => rfl
        | cons b bs =>
          cases rest with
          | nil => cases hr
          | cons y ys =>
            unfold optMap at hr
            cases hy : time y with
            | none => rw [hy] at hr; cases hr
            | some b' =>
              cases hz : optMap time ys with
              | none => rw [hy, hz] at hr; cases hr
              | some zs =>
                rw [hy, hz] at hr
                dsimp only at hr
                rw [Option.some.injEq, List.cons.injEq] at hr
                unfold nonDecreasing
                rw [Bool.and_eq_true]
                exact ⟨decide_eq_true (h.1 y (by simp) a b hx (by rw [hy, hr.1])), ih'⟩

theorem minText_mem (l : List Text) : ∀ {m : Text}, minText l = some m → m ∈ l ∧ ∀ x ∈ l, textLt x m = false := by
  induction l with
  | nil => intro m h; cases h
  | cons t rest ih =>
    intro m h
    unfold minText at h
    cases hr : minText rest with
    | none =>
      rw [hr] at h
      cases h
      cases rest with
      | nil =>
        refine ⟨by simp, ?_⟩
        intro x hx
        rw [List.mem_singleton.1 hx]
        exact textLt_irrefl _
      | cons y ys =>
        unfold minText at hr
        cases hy : minText ys with
        | none => rw [hy] at hr; cases hr
        | some m' =>
          rw [hy] at hr
          dsimp only at hr
          by_cases hm : textLt m' y = true
          · rw [if_pos hm] at hr; cases hr
          · rw [if_neg hm] at hr; cases hr
    | some m' =>
      rw [hr] at h
      dsimp only at h
      obtain ⟨i1, i2⟩ := ih hr
      by_cases hm : textLt m' t = true
      · rw [if_pos hm] at h
        cases h
        refine ⟨by simp [i1], ?_⟩
        intro x hx
        rcases List.mem_cons.1 hx with rfl | hx
        · cases hxm : textLt x m with
          | false => rfl
          | true =>
            have := textLt_trans _ _ _ hm hxm
            rw [textLt_irrefl] at this
            cases this
        · exact i2 x hx
      · rw [if_neg hm] at h
        cases h
        refine ⟨by simp, ?_⟩
        intro x hx
        rcases List.mem_cons.1 hx with rfl | hx
        · exact textLt_irrefl _
        · cases hxt : textLt x t with
          | false => rfl
          | true =>
            have h1 := i2 x hx
            have h2 : textLt m' t = false := by simpa using hm
            cases htm : textLt t m' with
            | true =>
              rw [textLt_trans _ _ _ hxt htm] at h1
              cases h1
            | false =>
              have := textLt_total _ _ htm h2
              rw [this] at hxt
              rw [hxt] at h1
              cases h1

theorem minText_some {l : List Text} (h : l ≠ []) : ∃ m, minText l = some m := by
  cases l with
  | nil => exact absurd rfl h
  | cons t rest =>
    unfold minText
    cases minText rest with
    | none => exact ⟨t, rfl⟩
    | some m =>
      dsimp only
      by_cases hm : textLt m t = true
      · rw [if_pos hm]; exact ⟨_, rfl⟩
      · rw [if_neg hm]; exact ⟨_, rfl⟩

/-- **C68, converse.** A full filter is not uploaded without need: deltas are chosen if the channel is accepted, the runs of its records are in the bucket and not after the one last by name, all newer runs are complete and valid, times do not
decrease, and no published run has reached the age limit. -/
theorem C68_deltas_when (existing : List KRec) (db : RunDb) (maxAge : Nat) (nw tip : Text) (cut : Nat × Nat) (lastRec : KRec) (tn : Nat)
    (hnw : db.ids.getLast? = some nw) (htn : db.time nw = some tn) (hne : existing.getLast? = some lastRec) (hv : verifyRecords existing = true) (htip : recordRun lastRec = some tip) (hcut : parseRun tip = some cut)
    (hparse : ∀ x ∈ db.ids, ∃ k, parseRun x = some k) (hready : ∀ x ∈ db.ids, db.ready x = true ∧ db.valid x = true ∧ ∃ t, db.time x = some t)
    (htimes : ∀ x ∈ db.ids, ∀ y ∈ db.ids, ∀ a b, db.time x = some a → db.time y = some b → RunNotAfter x y → a ≤ b)
    (hold : ∀ r ∈ existing, ∃ x ∈ db.ids, recordRun r = some x ∧ ∃ k t, parseRun x = some k ∧ pairLt cut k = false ∧ db.time x = some t ∧ tn < t + maxAge) :
    ∃ runs, determinePublish existing db maxAge = some (.deltas runs) := by
  have hex : existing ≠ [] := by intro e; rw [e] at hne; cases hne
  obtain ⟨rs, hrs⟩ := optMap_of recordRun existing (fun r hr => by obtain ⟨x, _, hx, _⟩ := hold r hr; exact ⟨x, hx⟩)
  obtain ⟨_, _, o3, o4⟩ := optMap_some recordRun existing hrs
  obtain ⟨o, n, hon⟩ := splitRuns_of cut db.ids hparse
  obtain ⟨s1, s2, s3, _⟩ := splitRuns_some cut db.ids hon
  have hn : ∀ x ∈ n, x ∈ db.ids := fun x hx => ((s2 x).1 hx).1
  have hmem : ∀ x, x ∈ sortRuns n ↔ x ∈ n := fun x => (sortRuns_perm n).mem_iff
  obtain ⟨ts, hts⟩ := optMap_of db.time (sortRuns n) (fun x hx => (hready x (hn x ((hmem x).1 hx))).2.2)
  have hnd : nonDecreasing ts = true := by
    refine nonDecreasing_of db.time (sortRuns n) ?_ hts
    refine (List.Pairwise.imp_of_mem ?_ (sortRuns_sorted n (fun x hx => s1 x (hn x hx))))
    intro x y hx hy hxy a b ha hb
    exact htimes x (hn x ((hmem x).1 hx)) y (hn y ((hmem y).1 hy)) a b ha hb hxy
  have hrsne : rs ≠ [] := by
    intro e
    rw [e, hne] at o4
    simp [htip] at o4
  obtain ⟨m, hm⟩ := minText_some hrsne
  obtain ⟨r, hr, hrm⟩ := o3 m (minText_mem rs hm).1
  obtain ⟨x, _, hx, _, t, _, _, ht, hage⟩ := hold r hr
  rw [hrm] at hx
  cases hx
  refine ⟨sortRuns n, ?_⟩
  unfold determinePublish
  rw [hnw]
  dsimp only
  rw [if_neg hex, if_neg (by rw [hv]; simp), hrs]
  dsimp only
  rw [o4, hne]
  simp only [Option.bind_some]
  rw [htip]
  simp only [Option.bind_some]
  rw [hcut]
  dsimp only
  rw [hon]
  dsimp only
  have hall : rs.all (fun r => o.contains r) = true := by
    rw [List.all_eq_true]
    intro y hy
    obtain ⟨q, hq, hqy⟩ := o3 y hy
    obtain ⟨z, hz1, hz2, k, _, hz3, hz4, _⟩ := hold q hq
    rw [hqy] at hz2
    cases hz2
    simpa using (s3 y).2 ⟨hz1, k, hz3, hz4⟩
  rw [if_pos hall]
  unfold verifyRuns
  have hrv : (n.all db.ready && n.all db.valid) = true := by
    rw [Bool.and_eq_true, List.all_eq_true, List.all_eq_true]
    exact ⟨fun y hy => (hready y (hn y hy)).1, fun y hy => (hready y (hn y hy)).2.1⟩
  rw [if_pos hrv, hts]
  dsimp only
  rw [if_pos hnd]
  dsimp only
  rw [hm]
  simp only [Option.bind_some]
  rw [ht, htn]
  dsimp only
  rw [if_neg (by omega)]

/-- **C68 (one of the two).** Whatever is wrong with the records or the runs, if the runs of the records and the runs in the bucket parse and the latter have a time, there is a decision: deltas, or a full filter of the newest run. -/
theorem C68_decides (existing : List KRec) (db : RunDb) (maxAge : Nat) (newest : Text) (hnew : db.ids.getLast? = some newest) (hrec : ∀ r ∈ existing, ∃ x k, recordRun r = some x ∧ parseRun x = some k)
    (hrun : ∀ x ∈ db.ids, (∃ k, parseRun x = some k) ∧ ∃ t, db.time x = some t) :
    determinePublish existing db maxAge = some (.full newest) ∨ ∃ runs, determinePublish existing db maxAge = some (.deltas runs) := by
  unfold determinePublish
  rw [hnew]
  dsimp only
  by_cases hex : existing = []
  · rw [if_pos hex]; exact Or.inl rfl
  · rw [if_neg hex]
    by_cases hv : verifyRecords existing = false
    · rw [if_pos hv]; exact Or.inl rfl
    · rw [if_neg hv]
      obtain ⟨rs, hrs⟩ := optMap_of recordRun existing (fun r hr => by obtain ⟨x, _, hx, _⟩ := hrec r hr; exact ⟨x, hx⟩)
      obtain ⟨_, _, o3, o4⟩ := optMap_some recordRun existing hrs
      obtain ⟨last, hlast⟩ : ∃ last, existing.getLast? = some last := ⟨_, List.getLast?_eq_some_getLast hex⟩
      obtain ⟨tip, cut, htip, hcut⟩ := hrec last (List.mem_of_getLast? hlast)
      rw [hrs]
      dsimp only
      rw [hlast, Option.bind_some, htip] at o4
      rw [o4, Option.bind_some, hcut]
      dsimp only
      obtain ⟨o, n, hon⟩ := splitRuns_of cut db.ids (fun x hx => (hrun x hx).1)
      obtain ⟨_, s2, s3, _⟩ := splitRuns_some cut db.ids hon
      rw [hon]
      dsimp only
      by_cases hall : rs.all (fun r => o.contains r) = true
      · rw [if_pos hall]
        have hrsne : rs ≠ [] := by
          intro e
          rw [e] at o4
          cases o4
        obtain ⟨m, hm⟩ := minText_some hrsne
        have hmo : m ∈ db.ids := by
          have := List.all_eq_true.1 hall m (minText_mem rs hm).1
          exact ((s3 m).1 (by simpa using this)).1
        obtain ⟨e, he⟩ := (hrun m hmo).2
        obtain ⟨t, ht⟩ := (hrun newest (List.mem_of_getLast? hnew)).2
        have hlast2 : ∀ new' : List Text, (match (minText rs).bind db.time, db.time newest with
            | some e, some n => if e + maxAge ≤ n then some (PubTask.full newest) else some (.deltas new')
            | _, _ => none) = some (.full newest) ∨ ∃ runs, (match (minText rs).bind db.time, db.time newest with
            | some e, some n => if e + maxAge ≤ n then some (PubTask.full newest) else some (.deltas new')
            | _, _ => none) = some (.deltas runs) := by
          intro new'
          rw [hm, Option.bind_some, he, ht]
          dsimp only
          by_cases hage : e + maxAge ≤ t
          · rw [if_pos hage]; exact Or.inl rfl
          · rw [if_neg hage]; exact Or.inr ⟨_, rfl⟩
        obtain ⟨ts, hts⟩ := optMap_of db.time (sortRuns n) (fun x hx => (hrun x ((s2 x).1 ((sortRuns_perm n).mem_iff.1 hx)).1).2)
        unfold verifyRuns
        by_cases hrv : (n.all db.ready && n.all db.valid) = true
        · rw [if_pos hrv, hts]
          dsimp only
          by_cases hnd : nonDecreasing ts = true
          · rw [if_pos hnd]; exact hlast2 _
          · rw [if_neg hnd]; exact Or.inl rfl
        · rw [if_neg hrv]; exact Or.inl rfl
      · rw [if_neg hall]; exact Or.inl rfl

/-- **C68 (otherwise).** One newer run that is not complete or not valid is enough: a full filter of the newest run is published. -/
theorem C68_not_ready_full (existing : List KRec) (db : RunDb) (maxAge : Nat) (newest : Text) (hnew : db.ids.getLast? = some newest) (hrec : ∀ r ∈ existing, ∃ x k, recordRun r = some x ∧ parseRun x = some k)
    (hrun : ∀ x ∈ db.ids, (∃ k, parseRun x = some k) ∧ ∃ t, db.time x = some t) (last : KRec) (hlast : existing.getLast? = some last) (tip : Text) (cut : Nat × Nat) (htip : recordRun last = some tip)
    (hcut : parseRun tip = some cut) (x : Text) (hx : x ∈ db.ids) (k : Nat × Nat) (hk : parseRun x = some k) (hlt : pairLt cut k = true) (hbad : db.ready x = false ∨ db.valid x = false) :
    determinePublish existing db maxAge = some (.full newest) := by
  rcases C68_decides existing db maxAge newest hnew hrec hrun with h | ⟨runs, h⟩
  · exact h
  · exfalso
    obtain ⟨_, _, last', tip', cut', h1, h2, h3, h4, _, _, h5, _⟩ := C68_deltas existing db maxAge runs h
    rw [hlast] at h1
    cases h1
    rw [htip] at h2
    cases h2
    rw [hcut] at h3
    cases h3
    obtain ⟨a, b, _⟩ := h5 x ((h4 x).2 ⟨hx, k, hk, hlt⟩)
    rw [a, b] at hbad
    rcases hbad with h | h <;> cases h

/-! ### C67, continued -/

theorem keyLt_trans {a b c : Nat × Nat} (h1 : KeyLt a b) (h2 : KeyLt b c) : KeyLt a c := by
  unfold KeyLt at *
  omega

theorem keyLt_irrefl {a : Nat × Nat} (h : KeyLt a a) : False := by
  unfold KeyLt at h
  omega

theorem keyLt_iff {a b : Nat × Nat} : KeyLt a b ↔ pairLt a b = true := (pairLt_iff a b).symm

theorem filter_dashless (slug : Text) (h : ∀ c ∈ slug, c ≠ '-') : (∀ c ∈ slug ++ ".filter".toList, c ≠ '-') ∧ (∀ c ∈ slug ++ ".filter.delta".toList, c ≠ '-') := by
  have h1 : ∀ c ∈ ".filter".toList, c ≠ '-' := by decide +kernel
  have h2 : ∀ c ∈ ".filter.delta".toList, c ≠ '-' := by decide +kernel
  constructor
  · intro c hc
    rcases List.mem_append.1 hc with hc | hc
    · exact h c hc
    · exact h1 c hc
  · intro c hc
    rcases List.mem_append.1 hc with hc | hc
    · exact h c hc
    · exact h2 c hc

theorem attachment_run {slug run : Text} {r : KRec} (hs : ∀ c ∈ slug, c ≠ '-') (h : attachmentOf slug run r) : recordRun r = some run := by
  obtain ⟨h1, h2⟩ := filter_dashless slug hs
  unfold recordRun
  rcases h with h | h
  · rw [h, Option.map_some]
    have := rsplitDash_file run (slug ++ ".filter".toList) h1
    rw [List.append_assoc]
    exact congrArg some this
  · rw [h, Option.map_some]
    have := rsplitDash_file run (slug ++ ".filter.delta".toList) h2
    rw [List.append_assoc]
    exact congrArg some this

theorem runKey_eq {slug : Text} {r : KRec} {k : Nat × Nat} {run : Text} (hs : ∀ c ∈ slug, c ≠ '-') (h : RunKey slug r k) (hr : recordRun r = some run) : parseRun run = some k := by
  obtain ⟨run', h1, h2⟩ := h
  rw [attachment_run hs h1] at hr
  cases hr
  exact h2

theorem runKey_unique {slug : Text} {r : KRec} {k k' : Nat × Nat} (hs : ∀ c ∈ slug, c ≠ '-') (h : RunKey slug r k) (h' : RunKey slug r k') : k = k' := by
  obtain ⟨run, h1, h2⟩ := h
  have := runKey_eq hs h' (attachment_run hs h1)
  rw [h2] at this
  cases this
  rfl

theorem linked_keys {slug : Text} {st : List KRec} (ht : Tidy slug st) (l : List KRec) : ∀ (prev : KRec) (p : Text), prev.id = some p → prev ∈ recordsOf slug st → prev.attachment.isSome = true → Linked p l →
    (∀ r ∈ l, r ∈ recordsOf slug st) → (prev :: l).Pairwise (fun a b => ∀ ka kb, RunKey slug a ka → RunKey slug b kb → KeyLt ka kb) := by
  induction l with
  | nil => intro prev p _ _ _ _ _; exact List.pairwise_singleton _ _
  | cons r rest ih =>
    intro prev p hp hpm hpa hl hs
    obtain ⟨a, b, c, i, d, e⟩ := hl
    have hr := hs r (by simp)
    have hlt := ht.2 r hr prev hpm c hpa a p hp b
    have hrest := ih r i d hr c e (fun x hx => hs x (by simp [hx]))
    rw [List.pairwise_cons]
    refine ⟨?_, hrest⟩
    intro x hx
    rcases List.mem_cons.1 hx with rfl | hx
    · intro ka kb h1 h2
      exact hlt kb ka h2 h1
    · rw [List.pairwise_cons] at hrest
      intro ka kb h1 h2
      obtain ⟨kr, hkr⟩ := ht.1 r hr c
      exact keyLt_trans (hlt kr ka hkr h1) (hrest.1 x hx kr kb hkr h2)

/-- The members of a chain are complete. -/
theorem chain_complete {l : List KRec} (hc : IsChain l) : ∀ r ∈ l, r.attachment.isSome = true ∧ ∃ i, r.id = some i := by
  cases l with
  | nil => exact hc.elim
  | cons x rest =>
    obtain ⟨_, b, i, c, d⟩ := hc
    intro r hr
    rcases List.mem_cons.1 hr with rfl | hr
    · exact ⟨b, i, c⟩
    · have := (linked_wf rest i d r hr).1
      unfold wellFormed at this
      simp only [Bool.and_eq_true] at this
      exact ⟨this.1.2, Option.isSome_iff_exists.1 this.1.1.1⟩

theorem chain_keys {slug : Text} {st : List KRec} (ht : Tidy slug st) (l : List KRec) (hc : IsChain l) (hs : ∀ r ∈ l, r ∈ recordsOf slug st) :
    l.Pairwise (fun a b => ∀ ka kb, RunKey slug a ka → RunKey slug b kb → KeyLt ka kb) := by
  cases l with
  | nil => exact hc.elim
  | cons r rest =>
    obtain ⟨_, b, i, c, d⟩ := hc
    exact linked_keys ht rest r i c (hs r (by simp)) b d (fun x hx => hs x (by simp [hx]))

theorem pairwise_getLast {α : Type} {R : α → α → Prop} (l : List α) (h : l.Pairwise R) (hne : l ≠ []) : ∀ x ∈ l, x = l.getLast hne ∨ R x (l.getLast hne) := by
  induction l with
  | nil => exact absurd rfl hne
  | cons a rest ih =>
    intro x hx
    rw [List.pairwise_cons] at h
    cases rest with
    | nil => exact Or.inl (List.mem_singleton.1 hx)
    | cons b bs =>
      have hlast : (a :: b :: bs).getLast hne = (b :: bs).getLast (by simp) := List.getLast_cons _
      rw [hlast]
      rcases List.mem_cons.1 hx with rfl | hx
      · exact Or.inr (h.1 _ (List.getLast_mem _))
      · exact ih h.2 (by simp) x hx

/-- **C67.** When deltas are chosen, the record last by name is the tip of the chain, whatever the names are: were the tip another record, its run would be later than the cut, and a full filter would be chosen. -/
theorem C67_last_is_tip (slug : Text) (db : RunDb) (maxAge : Nat) (runs : List Text) (st : List KRec) (hs : ∀ c ∈ slug, c ≠ '-') (ht : Tidy slug st)
    (hd : determinePublish (sortRecs (recordsOf slug st)) db maxAge = some (.deltas runs)) :
    ∃ l tip, l.Perm (recordsOf slug st) ∧ IsChain l ∧ (l.map KRec.id).Nodup ∧ l.getLast? = some tip ∧ (sortRecs (recordsOf slug st)).getLast? = some tip := by
  obtain ⟨hne, hv, last, tiprun, cut, h1, h2, h3, _, _, _, _, h4⟩ := C68_deltas _ _ _ _ hd
  have hp := sortRecs_perm (recordsOf slug st)
  rw [verifyRecords_perm hp] at hv
  rcases (C66_accepts_iff _).1 hv with he | ⟨l, hl, hc, hn⟩
  · rw [he] at hne
    exact absurd rfl hne
  · have hlne : l ≠ [] := by intro e; rw [e] at hc; exact hc
    have hsub : ∀ r ∈ l, r ∈ recordsOf slug st := fun r hr => hl.mem_iff.1 hr
    have hkeys := chain_keys ht l hc hsub
    have hlast : last ∈ l := hl.mem_iff.2 (hp.mem_iff.1 (List.mem_of_getLast? h1))
    refine ⟨l, last, hl, hc, hn, ?_, h1⟩
    rw [List.getLast?_eq_some_getLast hlne]
    rcases pairwise_getLast l hkeys hlne last hlast with e | hR
    · rw [e]
    · exfalso
      have htm : l.getLast hlne ∈ l := List.getLast_mem hlne
      have hcm := chain_complete hc
      obtain ⟨kt, hkt⟩ := ht.1 _ (hsub _ htm) (hcm _ htm).1
      obtain ⟨kl, hkl⟩ := ht.1 _ (hsub _ hlast) (hcm _ hlast).1
      have hlt := hR kl kt hkl hkt
      have hkl' := runKey_eq hs hkl h2
      rw [h3] at hkl'
      cases hkl'
      obtain ⟨x, _, hx, k, hk, hlt'⟩ := h4 (l.getLast hlne) (hp.mem_iff.2 (hsub _ htm))
      have := runKey_eq hs hkt hx
      rw [hk] at this
      cases this
      rw [keyLt_iff, hlt'] at hlt
      cases hlt

theorem tidy_sub {slug : Text} {st st' : List KRec} (ht : Tidy slug st) (hs : ∀ x ∈ st', x ∈ st) : Tidy slug st' := by
  have hsub : ∀ x ∈ recordsOf slug st', x ∈ recordsOf slug st := by
    intro x hx
    obtain ⟨a, b⟩ := List.mem_filter.1 hx
    exact List.mem_filter.2 ⟨hs x a, b⟩
  exact ⟨fun r hr => ht.1 r (hsub r hr), fun r hr s hs => ht.2 r (hsub r hr) s (hsub s hs)⟩

/-- Adding a record nobody refers to. -/
theorem tidy_add {slug : Text} {st : List KRec} (ht : Tidy slug st) (rec : KRec) (hid : ∀ r ∈ st, ∀ i, rec.id = some i → r.parent ≠ some i)
    (h1 : rec.attachment.isSome = true → ∃ k, RunKey slug rec k)
    (h2 : rec.attachment.isSome = true → rec.incremental = some true → ∀ s ∈ recordsOf slug st, ∀ i, s.id = some i → rec.parent = some i → ∀ kr ks, RunKey slug rec kr → RunKey slug s ks → KeyLt ks kr)
    (h3 : rec.attachment.isSome = true → rec.incremental = some true → rec.parent ≠ rec.id) : Tidy slug (st ++ [rec]) := by
  have hmem : ∀ x ∈ recordsOf slug (st ++ [rec]), x ∈ recordsOf slug st ∨ x = rec := by
    intro x hx
    rw [recordsOf_append] at hx
    rcases List.mem_append.1 hx with hx | hx
    · exact Or.inl hx
    · exact Or.inr (List.mem_singleton.1 (List.mem_filter.1 hx).1)
  constructor
  · intro r hr
    rcases hmem r hr with hr | rfl
    · exact ht.1 r hr
    · exact h1
  · intro r hr s hs ha hb hc i hi hp
    rcases hmem r hr with hr' | rfl
    · rcases hmem s hs with hs | rfl
      · exact ht.2 r hr' s hs ha hb hc i hi hp
      · exact absurd hp (hid r (List.mem_filter.1 hr').1 i hi)
    · rcases hmem s hs with hs | rfl
      · exact h2 ha hc s hs i hi hp
      · exact absurd (hp.trans hi.symm) (h3 ha hc)

/-- Publishing deltas keeps the collection tidy, whatever fails. -/
theorem tidy_deltas (env : PubEnv) (db : RunDb) (slug : Text) (hsl : ∀ c ∈ slug, c ≠ '-') (hf : FreshIds env.freshId) (runs : List Text) : ∀ (prev : Text) (st : List KRec), Tidy slug st →
    (∃ s ∈ st, s.id = some prev) → (∀ run ∈ runs, ∃ k, parseRun run = some k) →
    (∀ s ∈ recordsOf slug st, s.id = some prev → ∀ run ∈ runs, ∀ k ks, parseRun run = some k → RunKey slug s ks → KeyLt ks k) →
    runs.Pairwise (fun a b => ∀ ka kb, parseRun a = some ka → parseRun b = some kb → KeyLt ka kb) → Tidy slug (publishDeltas env db slug runs prev st).2 := by
  induction runs with
  | nil => intro prev st ht _ _ _ _; exact ht
  | cons run rest ih =>
    intro prev st ht hprev hparse hlt hpw
    rw [List.pairwise_cons] at hpw
    unfold publishDeltas
    by_cases hd : env.download run = true
    · rw [if_pos hd]
      cases htime : db.time run with
      | none => exact ht
      | some t =>
        dsimp only
        unfold publishRecord
        cases ho : env.outcome run with
        | ok =>
          dsimp only
          obtain ⟨k, hk⟩ := hparse run (by simp)
          have hkey : RunKey slug { deltaRec env slug run t prev with id := some (env.freshId st) } k := ⟨run, Or.inr rfl, hk⟩
          have hadd : Tidy slug (st ++ [{ deltaRec env slug run t prev with id := some (env.freshId st) }]) := by
            refine tidy_add ht _ ?_ ?_ ?_ ?_
            · intro r hr i hi
              cases hi
              exact (hf st r hr).2
            · intro _
              exact ⟨k, hkey⟩
            · intro _ _ s hs i hi hp kr ks hkr hks
              cases hp
              rw [runKey_unique hsl hkr hkey]
              exact hlt s hs hi run (by simp) k ks hk hks
            · intro _ _ he
              cases he
              obtain ⟨s, hs, hsi⟩ := hprev
              exact (hf st s hs).1 hsi
          refine ih _ _ hadd ⟨_, List.mem_append.2 (Or.inr (List.mem_singleton.2 rfl)), rfl⟩ (fun x hx => hparse x (by simp [hx])) ?_ hpw.2
          intro s hs hsi run' hrun' k' ks hk' hks
          rw [recordsOf_append] at hs
          rcases List.mem_append.1 hs with hs | hs
          · exact absurd hsi (hf st s (List.mem_filter.1 hs).1).1
          · rw [List.mem_singleton.1 (List.mem_filter.1 hs).1] at hks
            rw [runKey_unique hsl hks hkey]
            exact hpw.1 run' hrun' k k' hk hk'
        | createFails => exact ht
        | attachFails => exact ht
        | leftBehind =>
          refine tidy_add ht _ ?_ ?_ ?_ ?_
          · intro r hr i hi
            cases hi
            exact (hf st r hr).2
          · intro h; cases h
          · intro h; cases h
          · intro h; cases h
    · rw [if_neg hd]; exact ht

/-- Publishing a full filter keeps the collection tidy, whatever fails. -/
theorem tidy_full (env : PubEnv) (db : RunDb) (slug run : Text) (existing st : List KRec) (hrun : ∃ k, parseRun run = some k) (hf : FreshIds env.freshId) (ht : Tidy slug st) :
    Tidy slug (runTask env db slug existing (.full run) st).2 := by
  unfold runTask
  dsimp only
  by_cases hd : env.download run = true
  · rw [if_pos hd]
    have hsub1 := clear_sub env slug false st st
    cases h1 : clearLoop env slug false st st with
    | mk b1 st1 =>
      rw [h1] at hsub1
      have ht1 : Tidy slug st1 := tidy_sub ht hsub1
      cases b1 with
      | false => exact ht1
      | true =>
        dsimp only
        have hsub2 := clear_sub env slug true st1 st1
        cases h2 : clearLoop env slug true st1 st1 with
        | mk b2 st2 =>
          rw [h2] at hsub2
          have ht2 : Tidy slug st2 := tidy_sub ht1 hsub2
          cases b2 with
          | false => exact ht2
          | true =>
            dsimp only
            cases htime : db.time run with
            | none => exact ht2
            | some t =>
              dsimp only
              unfold publishRecord
              cases ho : env.outcome run with
              | ok =>
                dsimp only
                refine tidy_add ht2 _ ?_ ?_ ?_ ?_
                · intro r hr i hi
                  cases hi
                  exact (hf st2 r hr).2
                · intro _
                  obtain ⟨k, hk⟩ := hrun
                  exact ⟨k, run, Or.inl rfl, hk⟩
                · intro _ h; cases h
                · intro _ h; cases h
              | createFails => exact ht2
              | attachFails => exact ht2
              | leftBehind =>
                refine tidy_add ht2 _ ?_ ?_ ?_ ?_
                · intro r hr i hi
                  cases hi
                  exact (hf st2 r hr).2
                · intro h; cases h
                · intro h; cases h
                · intro h; cases h
  · rw [if_neg hd]; exact ht

theorem pairwise_of_forall_nodup {R : Text → Text → Prop} (l : List Text) (h : l.Nodup) (hR : ∀ a ∈ l, ∀ b ∈ l, a ≠ b → R a b) : l.Pairwise R := by
  induction l with
  | nil => exact List.Pairwise.nil
  | cons x rest ih =>
    rw [List.nodup_cons] at h
    rw [List.pairwise_cons]
    exact ⟨fun b hb => hR x (by simp) b (by simp [hb]) (fun e => h.1 (by rw [e]; exact hb)), ih h.2 (fun a ha b hb => hR a (by simp [ha]) b (by simp [hb]))⟩

/-- The deltas chosen belong to strictly increasing runs. -/
theorem deltas_increasing {db : RunDb} {runs : List Text} (hd : RunsDistinct db.ids) (hsub : ∀ x ∈ runs, x ∈ db.ids) (hcount : ∀ x, runs.count x ≤ db.ids.count x) (hsorted : runs.Pairwise RunNotAfter) :
    runs.Pairwise (fun a b => ∀ ka kb, parseRun a = some ka → parseRun b = some kb → KeyLt ka kb) := by
  have hnodup : runs.Nodup := by
    rw [List.nodup_iff_count]
    intro a
    exact Nat.le_trans (hcount a) (List.nodup_iff_count.1 hd.1 a)
  have hne : runs.Pairwise (fun a b => a ≠ b) := hnodup
  refine (List.Pairwise.and hsorted hne).imp_of_mem ?_
  intro a b ha hb hab ka kb hka hkb
  obtain ⟨⟨ka', kb', e1, e2, e3⟩, hne⟩ := hab
  rw [hka] at e1
  rw [hkb] at e2
  cases e1
  cases e2
  rw [pairLt_false_iff] at e3
  unfold KeyLt
  by_cases hk : ka = kb
  · subst hk
    exact absurd (hd.2 a (hsub a ha) b (hsub b hb) ka hka hkb) hne
  · have : ka.1 ≠ kb.1 ∨ ka.2 ≠ kb.2 := by
      by_cases h1 : ka.1 = kb.1
      · right
        intro h2
        exact hk (Prod.ext h1 h2)
      · exact Or.inl h1
    omega

/-- **C67.** Whatever the publisher does, whatever fails and wherever it is interrupted, the collection stays tidy. -/
theorem C67_tidy_kept (env : PubEnv) (db : RunDb) (slug : Text) (maxAge : Nat) (noop : Bool) (st : List KRec) (hs : ∀ c ∈ slug, c ≠ '-') (hf : FreshIds env.freshId) (hdist : RunsDistinct db.ids)
    (hparse : ∀ x ∈ db.ids, ∃ k, parseRun x = some k) (ht : Tidy slug st) : Tidy slug (publishCrlite env db slug maxAge noop st).2 := by
  unfold publishCrlite
  dsimp only
  cases hnew : db.ids.getLast? with
  | none => exact ht
  | some newest =>
    dsimp only
    by_cases hready : db.ready newest = true
    · rw [if_pos hready]
      have hfl : st.filter (ofChannel slug) = recordsOf slug st := rfl
      rw [hfl]
      cases hdet : determinePublish (sortRecs (recordsOf slug st)) db maxAge with
      | none => exact ht
      | some task =>
        dsimp only
        cases noop with
        | true => exact ht
        | false =>
          rw [if_neg (by simp)]
          cases task with
          | full run =>
            have := C68_full_newest _ _ _ _ hdet
            rw [hnew] at this
            cases this
            exact tidy_full env db slug newest _ st (hparse newest (List.mem_of_getLast? hnew)) hf ht
          | deltas runs =>
            obtain ⟨l, tip, hl, hc, hn, hltip, hstip⟩ := C67_last_is_tip slug db maxAge runs st hs ht hdet
            obtain ⟨_, _, last, tiprun, cut, d1, d2, d3, d4, d5, d6, _, _⟩ := C68_deltas _ _ _ _ hdet
            rw [hstip] at d1
            cases d1
            unfold runTask
            dsimp only
            cases runs with
            | nil => exact ht
            | cons run rest =>
              dsimp only
              rw [hstip, Option.bind_some]
              have htl : tip ∈ l := List.mem_of_getLast? hltip
              obtain ⟨hta, i, hi⟩ := chain_complete hc tip htl
              rw [hi]
              dsimp only
              have htm : tip ∈ recordsOf slug st := hl.mem_iff.1 htl
              refine tidy_deltas env db slug hs hf (run :: rest) i st ht ⟨tip, (List.mem_filter.1 htm).1, hi⟩ (fun x hx => hparse x ((d4 x).1 hx).1) ?_ (deltas_increasing hdist (fun x hx => ((d4 x).1 hx).1) d5 d6)
              intro s hsm hsi x hx k ks hk hks
              have hsl : s ∈ l := hl.mem_iff.2 hsm
              have hst : s = tip := by
                have h1 := idsGet_nodup hn hsl hsi
                have h2 := idsGet_nodup hn htl hi
                rw [h1] at h2
                cases h2
                rfl
              rw [hst] at hks
              have hcut := runKey_eq hs hks d2
              rw [d3] at hcut
              cases hcut
              obtain ⟨_, k', hk', hlt⟩ := (d4 x).1 hx
              rw [hk] at hk'
              cases hk'
              exact keyLt_iff.2 hlt
    · rw [if_neg hready]; exact ht

/-- **C67, deltas.** If deltas are chosen and publishing them succeeds, the channel is the old chain with exactly one delta per new run appended, the first attached to the old tip and each further one to the one before; and it is accepted again. -/
theorem C67_deltas_extend_chain (env : PubEnv) (db : RunDb) (slug : Text) (maxAge : Nat) (runs : List Text) (st st' : List KRec) (hs : ∀ c ∈ slug, c ≠ '-') (hf : FreshIds env.freshId) (ht : Tidy slug st)
    (hd : determinePublish (sortRecs (recordsOf slug st)) db maxAge = some (.deltas runs)) (hr : runTask env db slug (sortRecs (recordsOf slug st)) (.deltas runs) st = (true, st')) :
    ∃ l tip i new, l.Perm (recordsOf slug st) ∧ IsChain l ∧ l.getLast? = some tip ∧ tip.id = some i ∧ st' = st ++ new ∧ DeltasOf env.nameOf db.time slug i runs new ∧
      IsChain (l ++ new) ∧ (l ++ new).Perm (recordsOf slug st') ∧ verifyRecords (recordsOf slug st') = true := by
  obtain ⟨l, tip, hl, hc, hn, hltip, hstip⟩ := C67_last_is_tip slug db maxAge runs st hs ht hd
  have htl : tip ∈ l := List.mem_of_getLast? hltip
  obtain ⟨hta, i, hi⟩ := chain_complete hc tip htl
  have hlast : (l.map KRec.id).getLast? = some (some i) := by rw [List.getLast?_map, hltip, Option.map_some, hi]
  have hmain : ∃ new, st' = st ++ new ∧ DeltasOf env.nameOf db.time slug i runs new ∧ (new.map KRec.id).Nodup ∧ (∀ r ∈ new, ∀ s ∈ st, r.id ≠ s.id) := by
    unfold runTask at hr
    dsimp only at hr
    cases runs with
    | nil =>
      dsimp only at hr
      rw [Prod.mk.injEq] at hr
      exact ⟨[], by rw [← hr.2]; simp, trivial, by simp, by simp⟩
    | cons run rest =>
      dsimp only at hr
      rw [hstip, Option.bind_some, hi] at hr
      dsimp only at hr
      obtain ⟨done, todo, new, extra, h1, h2, h3, h4, h5, _, _, h8, _⟩ := publishDeltas_spec env db slug hf (run :: rest) i st
      rw [hr] at h2 h8
      obtain ⟨e1, e2⟩ := h8 rfl
      subst e1 e2
      rw [List.append_nil] at h1
      subst h1
      dsimp only at h2
      exact ⟨new, by rw [h2, List.append_nil], h3, h4, h5⟩
  obtain ⟨new, h1, h2, h3, h4⟩ := hmain
  have hchain := chain_append l new i hc hlast (deltasOf_linked runs h2)
  have hperm : (l ++ new).Perm (recordsOf slug st') := by
    rw [h1, recordsOf_append, recordsOf_all (deltasOf_channel runs h2)]
    exact hl.append_right new
  refine ⟨l, tip, i, new, hl, hc, hltip, hi, h1, h2, hchain, hperm, ?_⟩
  refine (C66_accepts_iff _).2 (Or.inr ⟨l ++ new, hperm, hchain, ?_⟩)
  rw [List.map_append, List.nodup_append]
  refine ⟨hn, h3, ?_⟩
  intro a ha b hb hab
  obtain ⟨x, hx, rfl⟩ := List.mem_map.1 ha
  obtain ⟨y, hy, rfl⟩ := List.mem_map.1 hb
  exact h4 y hy x (List.mem_filter.1 (hl.mem_iff.1 hx)).1 hab.symm

/-- **C67.** Every publication that succeeds leaves a channel that is accepted and not empty. -/
theorem C67_accepted_after (env : PubEnv) (db : RunDb) (slug : Text) (maxAge : Nat) (newest : Text) (st st' : List KRec) (hs : ∀ c ∈ slug, c ≠ '-') (hf : FreshIds env.freshId) (ht : Tidy slug st)
    (hnew : db.ids.getLast? = some newest) (hready : db.ready newest = true) (hp : publishCrlite env db slug maxAge false st = (true, st')) :
    verifyRecords (recordsOf slug st') = true ∧ recordsOf slug st' ≠ [] := by
  unfold publishCrlite at hp
  dsimp only at hp
  rw [hnew] at hp
  dsimp only at hp
  rw [if_pos hready] at hp
  have hfl : st.filter (ofChannel slug) = recordsOf slug st := rfl
  rw [hfl] at hp
  cases hdet : determinePublish (sortRecs (recordsOf slug st)) db maxAge with
  | none => rw [hdet] at hp; cases hp
  | some task =>
    rw [hdet] at hp
    dsimp only at hp
    rw [if_neg (by simp)] at hp
    cases task with
    | full run =>
      obtain ⟨r, t, h1, _, _, _, _, _, _, h2⟩ := C67_full_replaces env db slug run _ st st' hp
      exact ⟨h2, by rw [h1]; simp⟩
    | deltas runs =>
      obtain ⟨l, tip, i, new, _, _, hl, _, _, _, _, hperm, hv⟩ := C67_deltas_extend_chain env db slug maxAge runs st st' hs hf ht hdet hp
      refine ⟨hv, ?_⟩
      intro e
      rw [e] at hperm
      have := List.append_eq_nil_iff.1 (List.perm_nil.1 hperm)
      rw [this.1] at hl
      cases hl

/-- **C67.** When publishing deltas is interrupted, the channel is either the chain with the first few deltas, or is rejected (so that the next publication uploads a full filter). -/
theorem C67_interrupted (env : PubEnv) (db : RunDb) (slug : Text) (maxAge : Nat) (runs : List Text) (st st' : List KRec) (ok : Bool) (hs : ∀ c ∈ slug, c ≠ '-') (hf : FreshIds env.freshId) (ht : Tidy slug st)
    (hd : determinePublish (sortRecs (recordsOf slug st)) db maxAge = some (.deltas runs)) (hr : runTask env db slug (sortRecs (recordsOf slug st)) (.deltas runs) st = (ok, st')) :
    verifyRecords (recordsOf slug st') = false ∨
      ∃ l tip i done todo new, l.Perm (recordsOf slug st) ∧ l.getLast? = some tip ∧ tip.id = some i ∧ runs = done ++ todo ∧ st' = st ++ new ∧ DeltasOf env.nameOf db.time slug i done new ∧ IsChain (l ++ new) := by
  obtain ⟨l, tip, hl, hc, hn, hltip, hstip⟩ := C67_last_is_tip slug db maxAge runs st hs ht hd
  obtain ⟨hta, i, hi⟩ := chain_complete hc tip (List.mem_of_getLast? hltip)
  have hlast : (l.map KRec.id).getLast? = some (some i) := by rw [List.getLast?_map, hltip, Option.map_some, hi]
  unfold runTask at hr
  dsimp only at hr
  cases runs with
  | nil =>
    dsimp only at hr
    rw [Prod.mk.injEq] at hr
    exact Or.inr ⟨l, tip, i, [], [], [], hl, hltip, hi, rfl, by rw [← hr.2]; simp, trivial, by rw [List.append_nil]; exact hc⟩
  | cons run rest =>
    dsimp only at hr
    rw [hstip, Option.bind_some, hi] at hr
    dsimp only at hr
    obtain ⟨done, todo, new, extra, h1, h2, h3, h4, h5, h6, _, h8, _⟩ := publishDeltas_spec env db slug hf (run :: rest) i st
    rw [hr] at h2
    dsimp only at h2
    cases extra with
    | nil =>
      rw [List.append_nil] at h2
      exact Or.inr ⟨l, tip, i, done, todo, new, hl, hltip, hi, h1, h2, h3, chain_append l new i hc hlast (deltasOf_linked done h3)⟩
    | cons x xs =>
      left
      obtain ⟨hx1, hx2, _⟩ := h6 x (by simp)
      cases hv : verifyRecords (recordsOf slug st') with
      | false => rfl
      | true =>
        have hxm : x ∈ recordsOf slug st' := by
          refine List.mem_filter.2 ⟨by rw [h2]; simp, ?_⟩
          rw [hx2]
          simp
        rcases (C66_accepts_iff _).1 hv with he | ⟨l', hl', hc', _⟩
        · rw [he] at hxm; cases hxm
        · have := (chain_complete hc' x (hl'.mem_iff.2 hxm)).1
          rw [hx1] at this
          cases this

/-- **C67.** If there is no run, or the newest is not complete, there is nothing to do: the collection stays, and it is no error. -/
theorem C67_nothing_to_publish (env : PubEnv) (db : RunDb) (slug : Text) (maxAge : Nat) (noop : Bool) (st : List KRec) (h : ∀ newest, db.ids.getLast? = some newest → db.ready newest = false) :
    publishCrlite env db slug maxAge noop st = (true, st) := by
  unfold publishCrlite
  dsimp only
  cases hn : db.ids.getLast? with
  | none => rfl
  | some newest =>
    dsimp only
    rw [h newest hn]
    rfl

/-- A bucket without runs, and one whose only run is still being uploaded. -/
example (env : PubEnv) (st : List KRec) : publishCrlite env ⟨[], fun _ => true, fun _ => true, fun _ => none⟩ ['d'] 10 false st = (true, st) ∧
    publishCrlite env ⟨["20240101-0".toList], fun _ => false, fun _ => true, fun _ => some 1⟩ ['d'] 10 false st = (true, st) :=
  ⟨C67_nothing_to_publish env _ _ _ _ st (fun _ h => by cases h), C67_nothing_to_publish env _ _ _ _ st (fun _ _ => rfl)⟩

/-- **C67.** A dry run changes nothing. -/
theorem C67_noop (env : PubEnv) (db : RunDb) (slug : Text) (maxAge : Nat) (st : List KRec) : (publishCrlite env db slug maxAge true st).2 = st := by
  unfold publishCrlite
  dsimp only
  cases db.ids.getLast? with
  | none => rfl
  | some newest =>
    dsimp only
    by_cases hready : db.ready newest = true
    · rw [if_pos hready]
      cases determinePublish (sortRecs (st.filter (ofChannel slug))) db maxAge with
      | none => rfl
      | some task => rfl
    · rw [if_neg hready]

theorem clear_sublist (env : PubEnv) (slug : Text) (incr : Bool) (l : List KRec) : ∀ (st : List KRec), (clearLoop env slug incr l st).2.Sublist st := by
  induction l with
  | nil => intro st; exact List.Sublist.refl _
  | cons r rest ih =>
    intro st
    unfold clearLoop
    by_cases h1 : ofChannel slug r = true
    · rw [if_pos h1]
      cases h2 : r.incremental with
      | none => exact List.Sublist.refl _
      | some b =>
        dsimp only
        by_cases h3 : b = incr
        · rw [if_pos h3]
          cases h4 : r.id with
          | none => exact List.Sublist.refl _
          | some i =>
            dsimp only
            by_cases h5 : env.deleteOk i = true
            · rw [if_pos h5]
              exact (ih _).trans List.filter_sublist
            · rw [if_neg h5]; exact List.Sublist.refl _
        · rw [if_neg h3]; exact ih _
    · rw [if_neg h1]; exact ih _

/-- What a publication does to the collection: some records are deleted, and records of the channel, with new identifiers, are appended. -/
theorem publish_shape (env : PubEnv) (db : RunDb) (slug : Text) (maxAge : Nat) (noop : Bool) (st : List KRec) (hf : FreshIds env.freshId) :
    ∃ kept new, (publishCrlite env db slug maxAge noop st).2 = kept ++ new ∧ kept.Sublist st ∧ (∀ r ∈ new, r.channel = some slug ∧ ∀ s ∈ kept, r.id ≠ s.id) ∧ (new.map KRec.id).Nodup ∧
      ∀ other, (∀ r ∈ recordsOf slug st, ∀ x ∈ recordsOf other st, r.id ≠ x.id) → recordsOf other kept = recordsOf other st := by
  have hid : ∀ st : List KRec, ∃ kept new, st = kept ++ new ∧ kept.Sublist st ∧ (∀ r ∈ new, r.channel = some slug ∧ ∀ s ∈ kept, r.id ≠ s.id) ∧ (new.map KRec.id).Nodup ∧
      ∀ other, (∀ r ∈ recordsOf slug st, ∀ x ∈ recordsOf other st, r.id ≠ x.id) → recordsOf other kept = recordsOf other st :=
    fun st => ⟨st, [], by simp, List.Sublist.refl _, by simp, by simp, fun _ _ => rfl⟩
  unfold publishCrlite
  dsimp only
  cases hnew : db.ids.getLast? with
  | none => exact hid st
  | some newest =>
    dsimp only
    by_cases hready : db.ready newest = true
    · rw [if_pos hready]
      cases hdet : determinePublish (sortRecs (st.filter (ofChannel slug))) db maxAge with
      | none => exact hid st
      | some task =>
        dsimp only
        cases noop with
        | true => exact hid st
        | false =>
          rw [if_neg (by simp)]
          unfold runTask
          cases task with
          | full run =>
            dsimp only
            by_cases hd : env.download run = true
            · rw [if_pos hd]
              have hs1 := clear_sublist env slug false st st
              have ho1 := fun other => clear_other env slug other false st st
              cases h1 : clearLoop env slug false st st with
              | mk b1 st1 =>
                rw [h1] at hs1 ho1
                dsimp only at hs1 ho1
                have hother1 : ∀ other, (∀ r ∈ recordsOf slug st, ∀ x ∈ recordsOf other st, r.id ≠ x.id) → recordsOf other st1 = recordsOf other st := by
                  intro other h
                  exact ho1 other (fun r hr x hx hrc hxc => h r (List.mem_filter.2 ⟨hr, hrc⟩) x (List.mem_filter.2 ⟨hx, hxc⟩))
                cases b1 with
                | false => exact ⟨st1, [], by simp, hs1, by simp, by simp, hother1⟩
                | true =>
                  dsimp only
                  have hs2 := clear_sublist env slug true st1 st1
                  have ho2 := fun other => clear_other env slug other true st1 st1
                  cases h2 : clearLoop env slug true st1 st1 with
                  | mk b2 st2 =>
                    rw [h2] at hs2 ho2
                    dsimp only at hs2 ho2
                    have hother2 : ∀ other, (∀ r ∈ recordsOf slug st, ∀ x ∈ recordsOf other st, r.id ≠ x.id) → recordsOf other st2 = recordsOf other st := by
                      intro other h
                      rw [← hother1 other h]
                      exact ho2 other (fun r hr x hx hrc hxc => h r (List.mem_filter.2 ⟨hs1.subset hr, hrc⟩) x (List.mem_filter.2 ⟨hs1.subset hx, hxc⟩))
                    cases b2 with
                    | false => exact ⟨st2, [], by simp, hs2.trans hs1, by simp, by simp, hother2⟩
                    | true =>
                      dsimp only
                      cases db.time run with
                      | none => exact ⟨st2, [], by simp, hs2.trans hs1, by simp, by simp, hother2⟩
                      | some t =>
                        dsimp only
                        unfold publishRecord
                        cases env.outcome run with
                        | ok =>
                          refine ⟨st2, [{ fullRec env slug run t with id := some (env.freshId st2) }], rfl, hs2.trans hs1, ?_, by simp, hother2⟩
                          intro r hr
                          rw [List.mem_singleton.1 hr]
                          exact ⟨rfl, fun s hs e => (hf st2 s hs).1 e.symm⟩
                        | createFails => exact ⟨st2, [], by simp, hs2.trans hs1, by simp, by simp, hother2⟩
                        | attachFails => exact ⟨st2, [], by simp, hs2.trans hs1, by simp, by simp, hother2⟩
                        | leftBehind =>
                          refine ⟨st2, [{ fullRec env slug run t with id := some (env.freshId st2), attachment := none }], rfl, hs2.trans hs1, ?_, by simp, hother2⟩
                          intro r hr
                          rw [List.mem_singleton.1 hr]
                          exact ⟨rfl, fun s hs e => (hf st2 s hs).1 e.symm⟩
            · rw [if_neg hd]; exact hid st
          | deltas runs =>
            dsimp only
            cases runs with
            | nil => exact hid st
            | cons run rest =>
              dsimp only
              cases hb : (sortRecs (st.filter (ofChannel slug))).getLast?.bind KRec.id with
              | none => exact hid st
              | some prev =>
                dsimp only
                obtain ⟨done, todo, new, extra, h1, h2, h3, h4, h5, h6, h7, h8⟩ := publishDeltas_spec' env db slug hf (run :: rest) prev st
                refine ⟨st, new ++ extra, h2, List.Sublist.refl _, ?_, h8, fun _ _ => rfl⟩
                intro r hr
                rcases List.mem_append.1 hr with hr | hr
                · exact ⟨deltasOf_channel done h3 r hr, h5 r hr⟩
                · exact ⟨(h6 r hr).2.1, fun s hs e => (h6 r hr).2.2 s hs e.symm⟩
    · rw [if_neg hready]; exact hid st

/-- **C67.** Publishing one channel does not touch the records of the others. -/
theorem C67_other_channels (env : PubEnv) (db : RunDb) (slug other : Text) (maxAge : Nat) (noop : Bool) (st : List KRec) (hf : FreshIds env.freshId) (hne : other ≠ slug) (hids : (st.map KRec.id).Nodup) :
    recordsOf other (publishCrlite env db slug maxAge noop st).2 = recordsOf other st ∧ ((publishCrlite env db slug maxAge noop st).2.map KRec.id).Nodup := by
  obtain ⟨kept, new, h1, h2, h3, h4, h5⟩ := publish_shape env db slug maxAge noop st hf
  rw [h1]
  constructor
  · rw [recordsOf_append, h5 other ?_]
    · have : recordsOf other new = [] := by
        unfold recordsOf
        rw [List.filter_eq_nil_iff]
        intro r hr
        rw [(h3 r hr).1]
        simpa using fun e => hne e.symm
      rw [this, List.append_nil]
    · intro r hr x hx e
      obtain ⟨hr1, hr2⟩ := List.mem_filter.1 hr
      obtain ⟨hx1, hx2⟩ := List.mem_filter.1 hx
      have : r = x := eq_of_nodup_map KRec.id hids hr1 hx1 e
      rw [this] at hr2
      have a1 := of_decide_eq_true hr2
      have a2 := of_decide_eq_true hx2
      exact hne (a2.symm.trans a1)
  · rw [List.map_append, List.nodup_append]
    refine ⟨hids.sublist (h2.map _), h4, ?_⟩
    intro a ha b hb hab
    obtain ⟨x, hx, rfl⟩ := List.mem_map.1 ha
    obtain ⟨y, hy, rfl⟩ := List.mem_map.1 hb
    exact (h3 y hy).2 x hx hab.symm

/-- One run of the publisher for one channel. -/
structure PubStep where
  env : PubEnv
  db : RunDb
  slug : Text
  maxAge : Nat
  noop : Bool

/-- The collection after some runs of the publisher, in which anything may fail. -/
def afterSteps : List PubStep → List KRec → List KRec
  | [], st => st
  | s :: rest, st => afterSteps rest (publishCrlite s.env s.db s.slug s.maxAge s.noop st).2

/-- Channel names have no dash, Kinto gives fresh identifiers, and the runs in the bucket are different. -/
def GoodStep (s : PubStep) : Prop :=
  (∀ c ∈ s.slug, c ≠ '-') ∧ FreshIds s.env.freshId ∧ RunsDistinct s.db.ids ∧ ∀ x ∈ s.db.ids, ∃ k, parseRun x = some k

/-- **C67.** From an empty collection, through any sequence of publications in any channels with any failures and crashes: after every further publication that succeeds, the channel is a single chain. -/
theorem C67_history (steps : List PubStep) (s : PubStep) (hsteps : ∀ x ∈ steps, GoodStep x) (hs : GoodStep s) (newest : Text) (hnew : s.db.ids.getLast? = some newest) (hready : s.db.ready newest = true)
    (hnoop : s.noop = false) (st' : List KRec) (hp : publishCrlite s.env s.db s.slug s.maxAge s.noop (afterSteps steps []) = (true, st')) : SingleChain (recordsOf s.slug st') := by
  have key : ∀ (steps : List PubStep) (st : List KRec), (∀ x ∈ steps, GoodStep x) → (st.map KRec.id).Nodup → (∀ c, Tidy c st) → ∀ c, Tidy c (afterSteps steps st) := by
    intro steps
    induction steps with
    | nil => intro st _ _ ht; exact ht
    | cons x rest ih =>
      intro st hg hn ht
      obtain ⟨g1, g2, g3, g4⟩ := hg x (by simp)
      refine ih _ (fun y hy => hg y (by simp [hy])) ?_ ?_
      · exact (C67_other_channels x.env x.db x.slug ('-' :: x.slug) x.maxAge x.noop st g2 (List.cons_ne_self _ _) hn).2
      · intro c
        by_cases hc : c = x.slug
        · subst hc
          exact C67_tidy_kept x.env x.db x.slug x.maxAge x.noop st g1 g2 g3 g4 (ht _)
        · have h := (C67_other_channels x.env x.db x.slug c x.maxAge x.noop st g2 hc hn).1
          unfold Tidy
          rw [h]
          exact ht c
  have ht : Tidy s.slug (afterSteps steps []) := by
    refine key steps [] hsteps (by simp) ?_ s.slug
    intro c
    refine ⟨?_, ?_⟩
    · intro r hr; cases hr
    · intro r hr; cases hr
  obtain ⟨g1, g2, _, _⟩ := hs
  rw [hnoop] at hp
  obtain ⟨h1, h2⟩ := C67_accepted_after s.env s.db s.slug s.maxAge newest _ st' g1 g2 ht hnew hready hp
  rcases (C66_accepts_iff _).1 h1 with h | h
  · exact absurd h h2
  · exact h

theorem clear_done (env : PubEnv) (slug : Text) (incr : Bool) (hdel : ∀ i, env.deleteOk i = true) (l : List KRec) : ∀ (st : List KRec),
    (∀ r ∈ l, ofChannel slug r = true → r.incremental ≠ none ∧ r.id ≠ none) → (clearLoop env slug incr l st).1 = true := by
  induction l with
  | nil => intro st _; rfl
  | cons r rest ih =>
    intro st h
    have hrest : ∀ x ∈ rest, ofChannel slug x = true → x.incremental ≠ none ∧ x.id ≠ none := fun x hx => h x (List.mem_cons_of_mem _ hx)
    unfold clearLoop
    by_cases h1 : ofChannel slug r = true
    · rw [if_pos h1]
      obtain ⟨h2, h3⟩ := h r (by simp) h1
      cases h4 : r.incremental with
      | none => exact absurd h4 h2
      | some b =>
        dsimp only
        by_cases h5 : b = incr
        · rw [if_pos h5]
          cases h6 : r.id with
          | none => exact absurd h6 h3
          | some i =>
            dsimp only
            rw [if_pos (hdel i)]
            exact ih _ hrest
        · rw [if_neg h5]; exact ih st hrest
    · rw [if_neg h1]; exact ih st hrest

theorem deltas_done (env : PubEnv) (db : RunDb) (slug : Text) (hdl : ∀ r, env.download r = true) (hout : ∀ r, env.outcome r = .ok) (runs : List Text) : ∀ (prev : Text) (st : List KRec),
    (∀ r ∈ runs, ∃ t, db.time r = some t) → (publishDeltas env db slug runs prev st).1 = true := by
  induction runs with
  | nil => intro prev st _; rfl
  | cons r rest ih =>
    intro prev st h
    obtain ⟨t, ht⟩ := h r (by simp)
    unfold publishDeltas
    rw [if_pos (hdl r), ht]
    dsimp only
    unfold publishRecord
    rw [hout r]
    exact ih _ _ (fun x hx => h x (List.mem_cons_of_mem _ hx))

/-- **C67 (it gets through).** When there is something to decide and nothing goes wrong while carrying it out (the files can be downloaded, records can be deleted, created and given their attachment, the newest run has a time), the publication
succeeds, provided that every record of the channel has an identifier and the field `incremental`. What a successful publication leaves is said by `C67_full_replaces` and `C67_deltas_extend_chain`. -/
theorem C67_succeeds (env : PubEnv) (db : RunDb) (slug : Text) (maxAge : Nat) (newest : Text) (tn : Nat) (task : PubTask) (st : List KRec) (hnew : db.ids.getLast? = some newest) (htn : db.time newest = some tn)
    (hdet : determinePublish (sortRecs (recordsOf slug st)) db maxAge = some task) (hdl : ∀ r, env.download r = true) (hdel : ∀ i, env.deleteOk i = true) (hout : ∀ r, env.outcome r = .ok)
    (hrec : ∀ r ∈ recordsOf slug st, r.incremental ≠ none ∧ r.id ≠ none) : (publishCrlite env db slug maxAge false st).1 = true := by
  unfold publishCrlite
  dsimp only
  rw [hnew]
  dsimp only
  by_cases hready : db.ready newest = true
  · rw [if_pos hready]
    have hfl : st.filter (ofChannel slug) = recordsOf slug st := rfl
    rw [hfl, hdet]
    dsimp only
    rw [if_neg (by simp)]
    cases task with
    | full run =>
      have hrun := C68_full_newest _ _ _ _ hdet
      rw [hnew] at hrun
      cases hrun
      unfold runTask
      dsimp only
      rw [if_pos (hdl newest)]
      have hst : ∀ r ∈ st, ofChannel slug r = true → r.incremental ≠ none ∧ r.id ≠ none := fun r hr hc => hrec r (List.mem_filter.2 ⟨hr, hc⟩)
      cases h1 : clearLoop env slug false st st with
      | mk b1 st1 =>
        have hb1 := clear_done env slug false hdel st st hst
        rw [h1] at hb1
        dsimp only at hb1
        subst hb1
        dsimp only
        cases h2 : clearLoop env slug true st1 st1 with
        | mk b2 st2 =>
          have hb2 := clear_done env slug true hdel st1 st1 (fun r hr => hst r (clear_sub env slug false st st r (by rw [h1]; exact hr)))
          rw [h2] at hb2
          dsimp only at hb2
          subst hb2
          dsimp only
          rw [htn]
          dsimp only
          unfold publishRecord
          rw [hout newest]
    | deltas runs =>
      obtain ⟨_, _, last, _, _, hlast, _, _, _, _, _, htimes, _⟩ := C68_deltas _ _ _ _ hdet
      unfold runTask
      dsimp only
      cases runs with
      | nil => rfl
      | cons r rest =>
        dsimp only
        rw [hlast, Option.bind_some]
        have hm : last ∈ recordsOf slug st := (sortRecs_perm _).mem_iff.1 (List.mem_of_getLast? hlast)
        cases hid : last.id with
        | none => exact absurd hid (hrec last hm).2
        | some i =>
          dsimp only
          exact deltas_done env db slug hdl hout _ i st (fun x hx => (htimes x hx).2.2)
  · rw [if_neg hready]

/-- A record without the field `incremental` blocks the channel for good: the channel is rejected, so a full filter is to be published, and clearing fails with `KeyError`. Such a record is never written by the publisher itself. -/
theorem C67_malformed_blocks (env : PubEnv) (db : RunDb) (slug : Text) (maxAge : Nat) (newest : Text) (st : List KRec) (r : KRec) (hr : r ∈ recordsOf slug st) (hinc : r.incremental = none)
    (hnew : db.ids.getLast? = some newest) (hready : db.ready newest = true) : (publishCrlite env db slug maxAge false st).1 = false := by
  cases hp : publishCrlite env db slug maxAge false st with
  | mk ok st' =>
    cases ok with
    | false => rfl
    | true =>
      exfalso
      unfold publishCrlite at hp
      dsimp only at hp
      rw [hnew] at hp
      dsimp only at hp
      rw [if_pos hready] at hp
      have hfl : st.filter (ofChannel slug) = recordsOf slug st := rfl
      rw [hfl] at hp
      have hrej : verifyRecords (recordsOf slug st) = false := by
        cases hv : verifyRecords (recordsOf slug st) with
        | false => rfl
        | true =>
          rcases (C66_accepts_iff _).1 hv with he | ⟨l, hl, hc, _⟩
          · rw [he] at hr; cases hr
          · cases l with
            | nil => exact hc.elim
            | cons x rest =>
              obtain ⟨a, _, i, _, d⟩ := hc
              rcases List.mem_cons.1 (hl.mem_iff.2 hr) with rfl | hm
              · rw [hinc] at a; cases a
              · have := (linked_wf rest i d r hm).2
                rw [hinc] at this
                cases this
      cases hdet : determinePublish (sortRecs (recordsOf slug st)) db maxAge with
      | none => rw [hdet] at hp; cases hp
      | some task =>
        rw [hdet] at hp
        dsimp only at hp
        rw [if_neg (by simp)] at hp
        cases task with
        | deltas runs =>
          have := (C68_deltas _ _ _ _ hdet).2.1
          rw [verifyRecords_perm (sortRecs_perm _), hrej] at this
          cases this
        | full run =>
          unfold runTask at hp
          dsimp only at hp
          by_cases hd : env.download run = true
          · rw [if_pos hd] at hp
            cases h1 : clearLoop env slug false st st with
            | mk b1 st1 =>
              rw [h1] at hp
              cases b1 with
              | false => cases hp
              | true =>
                obtain ⟨hr1, hr2⟩ := List.mem_filter.1 hr
                obtain ⟨b, hb, _⟩ := clear_ok env slug false st st st1 h1 r hr1 hr2
                rw [hinc] at hb
                cases hb
          · rw [if_neg hd] at hp; cases hp

/-! ### C69 -/

theorem deltas_age (existing : List KRec) (db : RunDb) (maxAge : Nat) (newest : Text) (tn : Nat) (hnew : db.ids.getLast? = some newest) (htn : db.time newest = some tn) (runs : List Text)
    (h : determinePublish existing db maxAge = some (.deltas runs)) : ∃ rs m e, optMap recordRun existing = some rs ∧ minText rs = some m ∧ db.time m = some e ∧ tn < e + maxAge := by
  unfold determinePublish at h
  rw [hnew] at h
  dsimp only at h
  by_cases he : existing = []
  · rw [if_pos he] at h; cases h
  · rw [if_neg he] at h
    by_cases hv : verifyRecords existing = false
    · rw [if_pos hv] at h; cases h
    · rw [if_neg hv] at h
      cases hruns : optMap recordRun existing with
      | none => rw [hruns] at h; cases h
      | some rs =>
        rw [hruns] at h
        dsimp only at h
        refine ⟨rs, ?_⟩
        cases hcut : rs.getLast?.bind parseRun with
        | none => rw [hcut] at h; cases h
        | some cut =>
          rw [hcut] at h
          dsimp only at h
          cases hsp : splitRuns cut db.ids with
          | none => rw [hsp] at h; cases h
          | some on =>
            obtain ⟨old, new⟩ := on
            rw [hsp] at h
            dsimp only at h
            by_cases hall : rs.all (fun r => old.contains r) = true
            · rw [if_pos hall] at h
              cases hvr : verifyRuns db new with
              | none => rw [hvr] at h; cases h
              | some o =>
                rw [hvr] at h
                cases o with
                | none => cases h
                | some new' =>
                  dsimp only at h
                  cases hm : minText rs with
                  | none => rw [hm] at h; cases h
                  | some m =>
                    rw [hm, Option.bind_some] at h
                    cases hte : db.time m with
                    | none => rw [hte] at h; cases h
                    | some e =>
                      rw [hte, htn] at h
                      dsimp only at h
                      by_cases hage : e + maxAge ≤ tn
                      · rw [if_pos hage] at h; cases h
                      · exact ⟨m, e, rfl, rfl, hte, by omega⟩
            · rw [if_neg hall] at h; cases h

theorem not_deltas (existing : List KRec) (db : RunDb) (maxAge : Nat) (newest : Text) (hnew : db.ids.getLast? = some newest) (h : ∀ runs, determinePublish existing db maxAge ≠ some (.deltas runs)) :
    determinePublish existing db maxAge = some (.full newest) ∨ determinePublish existing db maxAge = none := by
  cases hd : determinePublish existing db maxAge with
  | none => exact Or.inr rfl
  | some task =>
    cases task with
    | deltas runs => exact absurd hd (h runs)
    | full run =>
      have := C68_full_newest _ _ _ _ hd
      rw [hnew] at this
      cases this
      exact Or.inl rfl

/-- **C69, partial.** If every published run is older than the newest run by at least the limit, deltas are not chosen: a full filter is published, or the publisher stops with an error. -/
theorem C69_all_old_partial (existing : List KRec) (db : RunDb) (maxAge : Nat) (newest : Text) (tn : Nat) (hnew : db.ids.getLast? = some newest) (htn : db.time newest = some tn)
    (hold : ∀ r ∈ existing, ∀ x t, recordRun r = some x → db.time x = some t → t + maxAge ≤ tn) :
    determinePublish existing db maxAge = some (.full newest) ∨ determinePublish existing db maxAge = none := by
  refine not_deltas existing db maxAge newest hnew ?_
  intro runs h
  obtain ⟨rs, m, e, h1, h2, h3, h4⟩ := deltas_age existing db maxAge newest tn hnew htn runs h
  obtain ⟨_, _, o3, _⟩ := optMap_some recordRun existing h1
  obtain ⟨r, hr, hrm⟩ := o3 m (minText_mem rs h2).1
  have := hold r hr m e hrm h3
  omega

/-- **C69, partial.** The same if only the oldest published run has reached the limit, provided that the order of the published runs as texts agrees with their times. Missing: runs of one day whose numbers have different lengths, see below. -/
theorem C69_oldest_partial (existing : List KRec) (db : RunDb) (maxAge : Nat) (newest : Text) (tn : Nat) (hnew : db.ids.getLast? = some newest) (htn : db.time newest = some tn)
    (horder : ∀ r ∈ existing, ∀ s ∈ existing, ∀ x y a b, recordRun r = some x → recordRun s = some y → db.time x = some a → db.time y = some b → textLt y x = false → a ≤ b)
    (r : KRec) (hr : r ∈ existing) (x : Text) (t : Nat) (hx : recordRun r = some x) (ht : db.time x = some t) (hold : t + maxAge ≤ tn) :
    determinePublish existing db maxAge = some (.full newest) ∨ determinePublish existing db maxAge = none := by
  refine not_deltas existing db maxAge newest hnew ?_
  intro runs h
  obtain ⟨rs, m, e, h1, h2, h3, h4⟩ := deltas_age existing db maxAge newest tn hnew htn runs h
  obtain ⟨_, o2, o3, _⟩ := optMap_some recordRun existing h1
  obtain ⟨q, hq, hqm⟩ := o3 m (minText_mem rs h2).1
  obtain ⟨y, hy, hyx⟩ := o2 r hr
  rw [hx] at hyx
  cases hyx
  have hle := horder q hq r hr m x e t hqm hx h3 ht ((minText_mem rs h2).2 x hy)
  omega

/-! ### examples -/

/-- Runs of four days, the times are hours. -/
def exRunTime (t : Text) : Option Nat :=
  if t = "20240101-9".toList then some 0
  else if t = "20240101-10".toList then some 2
  else if t = "20240102-0".toList then some 4
  else if t = "20240103-0".toList then some 9
  else none

def exDb (ids : List Text) : RunDb := ⟨ids, fun _ => true, fun _ => true, exRunTime⟩

/-- The longest identifier or parent. -/
def longest : List KRec → Nat
  | [] => 0
  | r :: rest => max (max (r.id.getD []).length (r.parent.getD []).length) (longest rest)

/-- An identifier longer than all. -/
def exFresh (st : List KRec) : Text := List.replicate (longest st + 1) 'i'

theorem longest_ge (st : List KRec) : ∀ r ∈ st, (r.id.getD []).length ≤ longest st ∧ (r.parent.getD []).length ≤ longest st := by
  induction st with
  | nil => intro r hr; cases hr
  | cons x rest ih =>
    intro r hr
    unfold longest
    rcases List.mem_cons.1 hr with rfl | hr
    · omega
    · have := ih r hr
      omega

theorem exFresh_fresh : FreshIds exFresh := by
  intro st r hr
  have h := longest_ge st r hr
  constructor
  · intro e
    rw [e] at h
    simp [exFresh] at h
    omega
  · intro e
    rw [e] at h
    simp [exFresh] at h
    omega

/-- All goes well. -/
def exPub : PubEnv := ⟨exFresh, fun _ => .ok, fun _ => true, fun _ => true, fun t full => List.replicate t 'z' ++ (if full then "Z-full".toList else "Z-diff".toList)⟩

/-- The program dies between creating the record and attaching the file. -/
def exPubDies : PubEnv := { exPub with outcome := fun _ => .leftBehind }

def exR1 : Text := "20240101-9".toList
def exR2 : Text := "20240101-10".toList
def exR3 : Text := "20240102-0".toList
def exR4 : Text := "20240103-0".toList

def exStep (env : PubEnv) (ids : List Text) : PubStep := ⟨env, exDb ids, "default".toList, 100, false⟩

theorem exStep_good (env : PubEnv) (h : env.freshId = exFresh) (ids : List Text) (hids : ids = [exR1] ∨ ids = [exR1, exR2] ∨ ids = [exR1, exR2, exR3]) : GoodStep (exStep env ids) := by
  refine ⟨by show ∀ c ∈ "default".toList, c ≠ '-'; decide +kernel, by show FreshIds env.freshId; rw [h]; exact exFresh_fresh, ?_, ?_⟩
  · have hnd : ids.Nodup := by
      rcases hids with rfl | rfl | rfl <;> decide +kernel
    refine ⟨hnd, ?_⟩
    have : ∀ a ∈ ids, ∀ b ∈ ids, parseRun a = parseRun b → a = b := by
      rcases hids with rfl | rfl | rfl <;> decide +kernel
    intro a ha b hb k h1 h2
    exact this a ha b hb (h1.trans h2.symm)
  · intro x hx
    have : ∀ x ∈ ids, (parseRun x).isSome = true := by
      rcases hids with rfl | rfl | rfl <;> decide +kernel
    exact Option.isSome_iff_exists.1 (this x hx)

/-- The hypotheses of `C67_succeeds` for a full filter and for deltas. -/
example : (publishCrlite exPub (exDb [exR1]) "default".toList 100 false []).1 = true :=
  C67_succeeds exPub (exDb [exR1]) "default".toList 100 exR1 0 (.full exR1) [] rfl (by decide +kernel) (by decide +kernel) (fun _ => rfl) (fun _ => rfl) (fun _ => rfl) (fun r hr => by cases hr)
example : (publishCrlite exPub (exDb [exR1, exR2]) "default".toList 100 false (afterSteps [exStep exPub [exR1]] [])).1 = true :=
  C67_succeeds exPub (exDb [exR1, exR2]) "default".toList 100 exR2 2 (.deltas [exR2]) (afterSteps [exStep exPub [exR1]] []) rfl (by decide +kernel) (by decide +kernel) (fun _ => rfl) (fun _ => rfl) (fun _ => rfl)
    (by decide +kernel)

/-- A history with a crash: a full filter, an interrupted delta, and then a full filter again, because the channel is rejected. -/
example : ∃ st', publishCrlite exPub (exDb [exR1, exR2, exR3]) "default".toList 100 false (afterSteps [exStep exPub [exR1], exStep exPubDies [exR1, exR2]] []) = (true, st') ∧ SingleChain (recordsOf "default".toList st') := by
  refine ⟨_, rfl, ?_⟩
  refine C67_history [exStep exPub [exR1], exStep exPubDies [exR1, exR2]] (exStep exPub [exR1, exR2, exR3]) ?_ (exStep_good _ rfl _ (Or.inr (Or.inr rfl))) exR3 rfl rfl rfl _ rfl
  intro x hx
  rcases List.mem_cons.1 hx with rfl | hx
  · exact exStep_good _ rfl _ (Or.inl rfl)
  · rw [List.mem_singleton.1 hx]
    exact exStep_good _ rfl _ (Or.inr (Or.inl rfl))

/-- After the crash two records are left, one of them without attachment; then the full filter replaces them. Without the crash there are three records. -/
example : (afterSteps [exStep exPub [exR1], exStep exPubDies [exR1, exR2]] []).length = 2 := by decide +kernel
example : (afterSteps [exStep exPub [exR1], exStep exPubDies [exR1, exR2], exStep exPub [exR1, exR2, exR3]] []).map KRec.attachment = ["20240102-0-default.filter".toList |> some] := by decide +kernel
example : (afterSteps [exStep exPub [exR1], exStep exPub [exR1, exR2, exR3]] []).map KRec.attachment =
    [some "20240101-9-default.filter".toList, some "20240101-10-default.filter.delta".toList, some "20240102-0-default.filter.delta".toList] := by decide +kernel

/-- **C69 fails.** `min(record_run_ids)` is the smallest text, and `20240101-10` is before `20240101-9`: the full filter of run 9 is four hours older than the newest run, and the limit is four hours, but another delta is published. -/
theorem C69_min_fails : ∃ (st : List KRec) (db : RunDb) (r : KRec), st = afterSteps [exStep exPub [exR1], exStep exPub [exR1, exR2]] [] ∧ db = exDb [exR1, exR2, exR3] ∧ r ∈ st ∧ r.incremental = some false ∧
    recordRun r = some exR1 ∧ db.time exR1 = some 0 ∧ db.ids.getLast? = some exR3 ∧ db.time exR3 = some 4 ∧
    determinePublish (sortRecs (recordsOf "default".toList st)) db 4 = some (.deltas [exR3]) := by
  refine ⟨_, _, ?_, rfl, rfl, ?_⟩
  · exact (afterSteps [exStep exPub [exR1], exStep exPub [exR1, exR2]] []).head (by decide +kernel)
  · refine ⟨List.head_mem _, ?_⟩
    decide +kernel

/-- The hypotheses of the partial results on this channel: with a limit of two hours the full filter is chosen; and the record of run 10 alone, in order with the later run. -/
example : determinePublish (sortRecs (afterSteps [exStep exPub [exR1], exStep exPub [exR1, exR2]] [])) (exDb [exR1, exR2, exR3]) 2 = some (.full exR3) := by decide +kernel
example : determinePublish (sortRecs (afterSteps [exStep exPub [exR1, exR2], exStep exPub [exR1, exR2, exR3]] [])) (exDb [exR1, exR2, exR3, exR4]) 7 = some (.full exR4) := by decide +kernel

/-! ### each theorem applied -/

/-- The channel after a full filter, and after a delta. -/
def exSt1 : List KRec := afterSteps [exStep exPub [exR1]] []
def exSt2 : List KRec := afterSteps [exStep exPub [exR1], exStep exPub [exR1, exR2]] []

theorem exDefault : ∀ c ∈ "default".toList, c ≠ '-' := by decide +kernel

theorem exTidy0 (slug : Text) : Tidy slug [] := ⟨(fun r hr => by cases hr), (fun r hr => by cases hr)⟩

theorem exTidy1 : Tidy "default".toList exSt1 :=
  C67_tidy_kept exPub (exDb [exR1]) "default".toList 100 false [] exDefault exFresh_fresh (exStep_good exPub rfl _ (Or.inl rfl)).2.2.1 (exStep_good exPub rfl _ (Or.inl rfl)).2.2.2 (exTidy0 _)

theorem exTidy2 : Tidy "default".toList exSt2 :=
  C67_tidy_kept exPub (exDb [exR1, exR2]) "default".toList 100 false exSt1 exDefault exFresh_fresh (exStep_good exPub rfl _ (Or.inr (Or.inl rfl))).2.2.1 (exStep_good exPub rfl _ (Or.inr (Or.inl rfl))).2.2.2 exTidy1

theorem exPlan : determinePublish (sortRecs (recordsOf "default".toList exSt2)) (exDb [exR1, exR2, exR3]) 100 = some (.deltas [exR3]) := by decide +kernel

/-- What the next delta leaves, if all goes well, and if the program dies before the file is attached. -/
def exSt3 : List KRec := (runTask exPub (exDb [exR1, exR2, exR3]) "default".toList (sortRecs (recordsOf "default".toList exSt2)) (.deltas [exR3]) exSt2).2
def exSt3Dies : List KRec := (runTask exPubDies (exDb [exR1, exR2, exR3]) "default".toList (sortRecs (recordsOf "default".toList exSt2)) (.deltas [exR3]) exSt2).2

example := C67_full_replaces exPub (exDb [exR1]) "default".toList exR1 [] [] exSt1 (by decide +kernel)
example := C68_deltas (sortRecs (recordsOf "default".toList exSt2)) (exDb [exR1, exR2, exR3]) 100 [exR3] exPlan
example := C68_full_newest (sortRecs (recordsOf "default".toList exSt2)) (exDb [exR1, exR2, exR3]) 2 exR3 (by decide +kernel)
example := C67_last_is_tip "default".toList (exDb [exR1, exR2, exR3]) 100 [exR3] exSt2 exDefault exTidy2 exPlan
example := C67_deltas_extend_chain exPub (exDb [exR1, exR2, exR3]) "default".toList 100 [exR3] exSt2 exSt3 exDefault exFresh_fresh exTidy2 exPlan (Prod.ext (by decide +kernel) rfl)
example := C67_accepted_after exPub (exDb [exR1, exR2, exR3]) "default".toList 100 exR3 exSt2 exSt3 exDefault exFresh_fresh exTidy2 rfl rfl (by decide +kernel)
/-- The channel of which a record has no attachment is rejected. -/
example : verifyRecords (recordsOf "default".toList exSt3Dies) = false :=
  (C67_interrupted exPubDies (exDb [exR1, exR2, exR3]) "default".toList 100 [exR3] exSt2 exSt3Dies false exDefault exFresh_fresh exTidy2 exPlan (Prod.ext (by decide +kernel) rfl)).resolve_right (by
    rintro ⟨l, tip, i, done, todo, new, _, _, _, hd, he, hn, _⟩
    have hl : new.length = 1 := by
      have := congrArg List.length he
      rw [List.length_append] at this
      have h1 : exSt3Dies.length = 3 := by decide +kernel
      have h2 : exSt2.length = 2 := by decide +kernel
      omega
    match new, hl with
    | [x], _ =>
      have hx : exSt3Dies.getLast? = some x := by rw [he]; simp
      have ha : exSt3Dies.getLast?.map KRec.attachment = some none := by decide +kernel
      rw [hx, Option.map_some, Option.some.injEq] at ha
      match done, hn with
      | [], hn => exact absurd hn (by simp [DeltasOf])
      | d :: ds, hn => exact absurd hn (by simp [DeltasOf, ha]))
example := C67_other_channels exPub (exDb [exR1, exR2, exR3]) "default".toList "compat".toList 100 false exSt2 exFresh_fresh (by decide) (by decide +kernel)
example := C67_malformed_blocks exPub (exDb [exR1]) "default".toList 100 exR1 [⟨some ['x'], none, none, some "20240101-9-default.filter".toList, [], some "default".toList⟩]
  ⟨some ['x'], none, none, some "20240101-9-default.filter".toList, [], some "default".toList⟩ (by decide +kernel) rfl rfl rfl
/-- A day that has five hours, from run 9 on: both records are older. -/
example := C69_all_old_partial (sortRecs (recordsOf "default".toList exSt2)) (exDb [exR1, exR2, exR3]) 2 exR3 4 rfl (by decide +kernel) (by
  intro r hr x t hx ht
  have h : ∀ r ∈ sortRecs (recordsOf "default".toList exSt2), ∀ x, recordRun r = some x → ∀ t, exRunTime x = some t → t + 2 ≤ 4 := by
    have : ∀ r ∈ sortRecs (recordsOf "default".toList exSt2), ((recordRun r).bind exRunTime).getD 0 + 2 ≤ 4 := by decide +kernel
    intro r hr x hx t ht
    have := this r hr
    rw [hx, Option.bind_some, ht] at this
    exact this
  exact h r hr x hx t ht)

/-- Two runs are published; the third is due. -/
example : ∃ runs, determinePublish (sortRecs (recordsOf "default".toList exSt2)) (exDb [exR1, exR2, exR3]) 100 = some (.deltas runs) := by
  have hk : ∀ x ∈ [exR1, exR2, exR3], x = exR1 ∨ x = exR2 ∨ x = exR3 := by
    intro x hx
    simpa only [List.mem_cons, List.not_mem_nil, or_false] using hx
  have k1 : parseRun exR1 = some (20240101, 9) := by decide +kernel
  have k2 : parseRun exR2 = some (20240101, 10) := by decide +kernel
  have k3 : parseRun exR3 = some (20240102, 0) := by decide +kernel
  have t1 : exRunTime exR1 = some 0 := by decide +kernel
  have t2 : exRunTime exR2 = some 2 := by decide +kernel
  have t3 : exRunTime exR3 = some 4 := by decide +kernel
  have hsome : (sortRecs (recordsOf "default".toList exSt2)).getLast?.isSome = true := by decide +kernel
  have hrecs : ∀ r ∈ sortRecs (recordsOf "default".toList exSt2), recordRun r = some exR1 ∨ recordRun r = some exR2 := by decide +kernel
  refine C68_deltas_when _ (exDb [exR1, exR2, exR3]) 100 exR3 exR2 (20240101, 10) (Option.get _ hsome) 4 rfl t3 (Option.some_get _).symm (by decide +kernel) (by revert hsome; decide +kernel) k2 ?_ ?_ ?_ ?_
  · intro x hx
    rcases hk x hx with rfl | rfl | rfl
    · exact ⟨_, k1⟩
    · exact ⟨_, k2⟩
    · exact ⟨_, k3⟩
  · intro x hx
    rcases hk x hx with rfl | rfl | rfl
    · exact ⟨rfl, rfl, _, t1⟩
    · exact ⟨rfl, rfl, _, t2⟩
    · exact ⟨rfl, rfl, _, t3⟩
  · intro x hx y hy a b ha hb hxy
    have ha : exRunTime x = some a := ha
    have hb : exRunTime y = some b := hb
    obtain ⟨p, q, hp, hq, hpq⟩ := hxy
    rcases hk x hx with rfl | rfl | rfl <;> rcases hk y hy with rfl | rfl | rfl <;> simp only [t1, t2, t3, k1, k2, k3, Option.some.injEq] at ha hb hp hq <;> subst ha <;> subst hb <;> subst hp <;> subst hq <;>
      first | exact absurd hpq (by decide) | decide
  · intro r hr
    rcases hrecs r hr with h | h
    · exact ⟨exR1, List.mem_cons_self, h, _, 0, k1, by decide, t1, by decide⟩
    · exact ⟨exR2, List.mem_cons_of_mem _ List.mem_cons_self, h, _, 2, k2, by decide, t2, by decide⟩

/-- Two runs are published; the third is due, but its files are not complete: a full filter of it is asked for (and fails when it is built). -/
example : determinePublish (sortRecs (recordsOf "default".toList exSt2)) ⟨[exR1, exR2, exR3], fun x => decide (x ≠ exR3), fun _ => true, exRunTime⟩ 100 = some (.full exR3) := by
  have k1 : parseRun exR1 = some (20240101, 9) := by decide +kernel
  have k2 : parseRun exR2 = some (20240101, 10) := by decide +kernel
  have k3 : parseRun exR3 = some (20240102, 0) := by decide +kernel
  have t1 : exRunTime exR1 = some 0 := by decide +kernel
  have t2 : exRunTime exR2 = some 2 := by decide +kernel
  have t3 : exRunTime exR3 = some 4 := by decide +kernel
  have hsome : (sortRecs (recordsOf "default".toList exSt2)).getLast?.isSome = true := by decide +kernel
  have hrecs : ∀ r ∈ sortRecs (recordsOf "default".toList exSt2), recordRun r = some exR1 ∨ recordRun r = some exR2 := by decide +kernel
  refine C68_not_ready_full _ _ 100 exR3 rfl ?_ ?_ (Option.get _ hsome) (Option.some_get _).symm exR2 (20240101, 10) (by revert hsome; decide +kernel) k2 exR3 (by simp) _ k3 (by decide) (Or.inl (by decide +kernel))
  · intro r hr
    rcases hrecs r hr with h | h
    · exact ⟨_, _, h, k1⟩
    · exact ⟨_, _, h, k2⟩
  · intro x hx
    simp only [List.mem_cons, List.not_mem_nil, or_false] at hx
    rcases hx with rfl | rfl | rfl
    · exact ⟨⟨_, k1⟩, _, t1⟩
    · exact ⟨⟨_, k2⟩, _, t2⟩
    · exact ⟨⟨_, k3⟩, _, t3⟩

end Verif.Props
