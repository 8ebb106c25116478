import Verif.Model.Workflow
import Verif.Props.Publisher
import Verif.Model.PublisherMain
/-!
Properties C72 and C73: run identifiers and uploads.
-/
namespace Verif.Spec

/-- Eight digits. -/
def IsDate (d : Text) : Prop := d.length = 8 ∧ ∀ c ∈ d, '0' ≤ c ∧ c ≤ '9'

/-- The name of the run with number `n` on day `d`. -/
def runName (d : Text) (n : Nat) : Text := d ++ '-' :: Nat.toDigits 10 n

/-- A directory name that begins like a run: eight digits, a dash and a digit. -/
def LooksLikeRun (t : Text) : Prop := ∃ d c rest, IsDate d ∧ '0' ≤ c ∧ c ≤ '9' ∧ t = d ++ '-' :: c :: rest

/-- Day `d`, run `n` is before day `d'`, run `n'`. -/
def IdBefore (d : Text) (n : Nat) (d' : Text) (n' : Nat) : Prop := Verif.Props.digitsNat d < Verif.Props.digitsNat d' ∨ (d = d' ∧ n < n')

/-- `a` names a run before the one that `b` names. -/
def NameBefore (a b : Text) : Prop := ∃ d n d' n', IsDate d ∧ IsDate d' ∧ a = runName d n ∧ b = runName d' n' ∧ IdBefore d n d' n'

/-- A bucket in which every directory that begins like a run is the directory of a run with a number below a million. -/
def TidyBucket (dirs : List Text) : Prop := ∀ x ∈ dirs, (∃ d n, IsDate d ∧ n < 1000000 ∧ x = runName d n ++ ['/']) ∨ ¬LooksLikeRun x

end Verif.Spec

namespace Verif.Props
open Verif.Spec

theorem isDig_iff (c : Char) : isDig c = true ↔ '0' ≤ c ∧ c ≤ '9' := by
  unfold isDig
  exact decide_eq_true_iff

theorem toDigits_dig (n : Nat) : ∀ c ∈ Nat.toDigits 10 n, '0' ≤ c ∧ c ≤ '9' := by
  intro c hc
  have h := Nat.isDigit_of_mem_toDigits (by decide) (by decide) hc
  unfold Char.isDigit at h
  rw [Bool.and_eq_true] at h
  exact ⟨of_decide_eq_true h.1, of_decide_eq_true h.2⟩

theorem digitsNat_append (a b : Text) : digitsNat (a ++ b) = digitsNat a * 10 ^ b.length + digitsNat b := by
  unfold digitsNat
  rw [List.foldl_append, digits_foldl]
  rfl

theorem digitsNat_digit (n : Nat) (h : n < 10) : digitsNat [n.digitChar] = n := by
  unfold digitsNat
  rw [List.foldl_cons, List.foldl_nil, Nat.toNat_digitChar_sub_48_of_lt_ten h]
  omega

theorem digitsNat_toDigits (n : Nat) : digitsNat (Nat.toDigits 10 n) = n := by
  induction n using Nat.strongRecOn with
  | ind n ih =>
    by_cases h : n < 10
    · rw [Nat.toDigits_of_lt_base h, digitsNat_digit n h]
    · rw [Nat.toDigits_of_base_le (by decide) (by omega), digitsNat_append, ih (n / 10) (by omega), digitsNat_digit _ (by omega)]
      simp only [List.length_singleton]
      omega

theorem digitsNat_zeros (k : Nat) : digitsNat (List.replicate k '0') = 0 := by
  induction k with
  | zero => rfl
  | succ k ih => rw [List.replicate_succ, digitsNat_cons, ih]; simp

theorem digitsNat_pad (w n : Nat) : digitsNat (padZeros w (Nat.toDigits 10 n)) = n := by
  unfold padZeros
  rw [digitsNat_append, digitsNat_zeros, digitsNat_toDigits]
  omega

theorem pad_length (n : Nat) (h : n < 1000000) : (padZeros 6 (Nat.toDigits 10 n)).length = 6 := by
  have := (Nat.length_toDigits_le_iff (b := 10) (n := n) (k := 6) (by decide) (by decide)).2 (by simpa using h)
  unfold padZeros
  rw [List.length_append, List.length_replicate]
  omega

theorem pad_dig (n : Nat) : ∀ c ∈ padZeros 6 (Nat.toDigits 10 n), '0' ≤ c ∧ c ≤ '9' := by
  intro c hc
  unfold padZeros at hc
  rcases List.mem_append.1 hc with h | h
  · rw [List.eq_of_mem_replicate h]; decide
  · exact toDigits_dig n c h

theorem digitsNat_inj_len {a b : Text} (hl : a.length = b.length) (ha : ∀ c ∈ a, '0' ≤ c ∧ c ≤ '9') (hb : ∀ c ∈ b, '0' ≤ c ∧ c ≤ '9') (h : digitsNat a = digitsNat b) : a = b := by
  apply textLt_total
  · rw [Bool.eq_false_iff]
    intro h'
    have := (textLt_iff_lt a b hl ha hb).1 h'
    omega
  · rw [Bool.eq_false_iff]
    intro h'
    have := (textLt_iff_lt b a hl.symm hb ha).1 h'
    omega

theorem date_inj {a b : Text} (ha : IsDate a) (hb : IsDate b) (h : digitsNat a = digitsNat b) : a = b :=
  digitsNat_inj_len (ha.1.trans hb.1.symm) ha.2 hb.2 h

theorem dig_ne_dash {c : Char} (h : '0' ≤ c ∧ c ≤ '9') : c ≠ '-' := by
  rintro rfl
  exact absurd h.1 (by decide)

theorem takeWhile_dash (d rest : Text) (h : ∀ c ∈ d, '0' ≤ c ∧ c ≤ '9') : (d ++ '-' :: rest).takeWhile (· ≠ '-') = d := by
  rw [List.takeWhile_append_of_pos (fun c hc => decide_eq_true (dig_ne_dash (h c hc))), List.takeWhile_cons_of_neg (by simp), List.append_nil]

theorem dropWhile_dash (d rest : Text) (h : ∀ c ∈ d, '0' ≤ c ∧ c ≤ '9') : (d ++ '-' :: rest).dropWhile (· ≠ '-') = '-' :: rest := by
  rw [List.dropWhile_append_of_pos (fun c hc => decide_eq_true (dig_ne_dash (h c hc))), List.dropWhile_cons_of_neg (by simp)]

theorem idDate_runName {d : Text} (h : IsDate d) (n : Nat) : idDate (runName d n) = d := takeWhile_dash d _ h.2

theorem idIdx_runName {d : Text} (h : IsDate d) (n : Nat) : idIdx (runName d n) = n := by
  unfold idIdx runName
  rw [dropWhile_dash d _ h.2]
  exact digitsNat_toDigits n

theorem runName_inj {d d' : Text} {n n' : Nat} (h : IsDate d) (h' : IsDate d') (e : runName d n = runName d' n') : d = d' ∧ n = n' :=
  ⟨by rw [← idDate_runName h n, e, idDate_runName h' n'], by rw [← idIdx_runName h n, e, idIdx_runName h' n']⟩

theorem idKey_lt {d d' : Text} {n n' : Nat} (h : IsDate d) (h' : IsDate d') (hn : n < 1000000) (hn' : n' < 1000000) :
    textLt (idKey (runName d n)) (idKey (runName d' n')) = true ↔ IdBefore d n d' n' := by
  unfold idKey
  rw [idDate_runName h, idDate_runName h', idIdx_runName h, idIdx_runName h']
  rw [textLt_iff_lt]
  · rw [digitsNat_append, digitsNat_append, digitsNat_pad, digitsNat_pad, pad_length n hn, pad_length n' hn']
    unfold IdBefore
    constructor
    · intro hlt
      by_cases he : digitsNat d = digitsNat d'
      · right; exact ⟨date_inj h h' he, by rw [he] at hlt; omega⟩
      · left; omega
    · rintro (hlt | ⟨rfl, hlt⟩)
      · omega
      · omega
  · rw [List.length_append, List.length_append, pad_length n hn, pad_length n' hn', h.1, h'.1]
  · intro c hc
    rcases List.mem_append.1 hc with hc | hc
    · exact h.2 c hc
    · exact pad_dig n c hc
  · intro c hc
    rcases List.mem_append.1 hc with hc | hc
    · exact h'.2 c hc
    · exact pad_dig n' c hc

theorem matchId_prefix {d : Text} (h : IsDate d) (c : Char) (hc : '0' ≤ c ∧ c ≤ '9') (rest : Text) : matchId (d ++ '-' :: c :: rest) = some (d ++ '-' :: c :: rest.takeWhile isDig) := by
  unfold matchId
  rw [List.take_left' h.1, List.drop_left' h.1, if_pos ⟨h.1, List.all_eq_true.2 (fun x hx => (isDig_iff x).2 (h.2 x hx))⟩]
  dsimp only
  rw [if_pos rfl, List.takeWhile_cons_of_pos ((isDig_iff c).2 hc), if_neg (by simp)]

theorem matchId_none {t : Text} (h : ¬LooksLikeRun t) : matchId t = none := by
  cases hm : matchId t with
  | none => rfl
  | some x =>
    exfalso
    unfold matchId at hm
    by_cases h1 : (t.take 8).length = 8 ∧ (t.take 8).all isDig
    · rw [if_pos h1] at hm
      cases hd : t.drop 8 with
      | nil => rw [hd] at hm; cases hm
      | cons c rest =>
        rw [hd] at hm
        dsimp only at hm
        by_cases h2 : c = '-'
        · rw [if_pos h2] at hm
          cases rest with
          | nil => rw [if_pos (by simp)] at hm; cases hm
          | cons e rest =>
            by_cases he : isDig e = true
            · refine h ⟨t.take 8, e, rest, ⟨h1.1, fun x hx => (isDig_iff x).1 (List.all_eq_true.1 h1.2 x hx)⟩, ((isDig_iff e).1 he).1, ((isDig_iff e).1 he).2, ?_⟩
              rw [← h2, ← hd, List.take_append_drop]
            · rw [List.takeWhile_cons_of_neg he, if_pos rfl] at hm
              cases hm
        · rw [if_neg h2] at hm; cases hm
    · rw [if_neg h1] at hm; cases hm

theorem matchId_runName {d : Text} (h : IsDate d) (n : Nat) : matchId (runName d n ++ ['/']) = some (runName d n) := by
  unfold runName
  cases hd : Nat.toDigits 10 n with
  | nil => exact absurd hd Nat.toDigits_ne_nil
  | cons c rest =>
    have hdig := toDigits_dig n
    rw [hd] at hdig
    rw [List.append_assoc, List.cons_append, List.cons_append, matchId_prefix h c (hdig c List.mem_cons_self)]
    rw [List.takeWhile_append_of_pos (fun x hx => (isDig_iff x).2 (hdig x (List.mem_cons_of_mem _ hx))), List.takeWhile_cons_of_neg (by decide), List.append_nil]

/-! ### sorting -/

theorem insertId_perm (x : Text) (l : List Text) : (insertId x l).Perm (x :: l) := by
  induction l with
  | nil => exact List.Perm.refl _
  | cons y ys ih =>
    unfold insertId
    by_cases h : textLt (idKey y) (idKey x) = true
    · rw [if_pos h]; exact (List.Perm.cons y ih).trans (List.Perm.swap x y ys)
    · rw [if_neg h]

theorem sortIds_perm (l : List Text) : (sortIds l).Perm l := by
  induction l with
  | nil => exact List.Perm.refl _
  | cons x xs ih => exact (insertId_perm x _).trans (List.Perm.cons x ih)

/-- `a` does not come after `b`. -/
def KeyLe (a b : Text) : Prop := textLt (idKey b) (idKey a) = false

theorem keyLe_trans {a b c : Text} (h1 : KeyLe a b) (h2 : KeyLe b c) : KeyLe a c := by
  unfold KeyLe at *
  rw [Bool.eq_false_iff]
  intro h
  by_cases hab : textLt (idKey a) (idKey b) = true
  · rw [textLt_trans _ _ _ h hab] at h2; cases h2
  · have := textLt_total _ _ (by simpa using hab) h1
    rw [this, h2] at h
    cases h

theorem insertId_sorted (x : Text) (l : List Text) (h : l.Pairwise KeyLe) : (insertId x l).Pairwise KeyLe := by
  induction l with
  | nil => exact List.pairwise_singleton _ _
  | cons y ys ih =>
    rw [List.pairwise_cons] at h
    unfold insertId
    by_cases hl : textLt (idKey y) (idKey x) = true
    · rw [if_pos hl, List.pairwise_cons]
      refine ⟨?_, ih h.2⟩
      intro z hz
      rcases List.mem_cons.1 ((insertId_perm x ys).mem_iff.1 hz) with rfl | hz
      · unfold KeyLe
        rw [Bool.eq_false_iff]
        intro h'
        have := textLt_trans _ _ _ hl h'
        rw [textLt_irrefl] at this
        cases this
      · exact h.1 z hz
    · rw [if_neg hl, List.pairwise_cons, List.pairwise_cons]
      have hxy : KeyLe x y := by simpa [KeyLe] using hl
      refine ⟨?_, h⟩
      intro z hz
      rcases List.mem_cons.1 hz with rfl | hz
      · exact hxy
      · exact keyLe_trans hxy (h.1 z hz)

theorem sortIds_sorted (l : List Text) : (sortIds l).Pairwise KeyLe := by
  induction l with
  | nil => exact List.Pairwise.nil
  | cons x xs ih => exact insertId_sorted x _ ih

/-! ### C72 -/

theorem mem_getRun {dirs : List Text} (ht : TidyBucket dirs) (t : Text) : t ∈ getRunIdentifiers dirs ↔ ∃ d n, IsDate d ∧ n < 1000000 ∧ t = runName d n ∧ runName d n ++ ['/'] ∈ dirs := by
  unfold getRunIdentifiers
  rw [(sortIds_perm _).mem_iff, List.mem_filterMap]
  constructor
  · rintro ⟨x, hx, hm⟩
    rcases ht x hx with ⟨d, n, hd, hn, rfl⟩ | h
    · rw [matchId_runName hd, Option.some.injEq] at hm
      exact ⟨d, n, hd, hn, hm.symm, hx⟩
    · rw [matchId_none h] at hm; cases hm
  · rintro ⟨d, n, hd, hn, rfl, hx⟩
    exact ⟨_, hx, matchId_runName hd n⟩

/-- **C72.** In a tidy bucket the identifiers listed are exactly the names of the runs, and they are in order of day and number. -/
theorem C72_listed_partial (dirs : List Text) (ht : TidyBucket dirs) :
    (∀ t, t ∈ getRunIdentifiers dirs ↔ ∃ d n, IsDate d ∧ n < 1000000 ∧ t = runName d n ∧ runName d n ++ ['/'] ∈ dirs) ∧
    (getRunIdentifiers dirs).Pairwise (fun a b => ¬NameBefore b a) := by
  refine ⟨mem_getRun ht, ?_⟩
  have hmem := mem_getRun ht
  have hs : (getRunIdentifiers dirs).Pairwise KeyLe := sortIds_sorted _
  refine List.Pairwise.imp_of_mem ?_ hs
  intro a b ha hb hle
  rintro ⟨d', n', d, n, hd', hd, rfl, rfl, hlt⟩
  obtain ⟨d1, n1, hd1, hn1, e1, _⟩ := (hmem _).1 ha
  obtain ⟨d2, n2, hd2, hn2, e2, _⟩ := (hmem _).1 hb
  obtain ⟨rfl, rfl⟩ := runName_inj hd hd1 e1
  obtain ⟨rfl, rfl⟩ := runName_inj hd' hd2 e2
  have := (idKey_lt hd2 hd1 hn2 hn1).2 hlt
  unfold KeyLe at hle
  rw [hle] at this
  cases this

theorem pairwise_getLast_or {α} {R : α → α → Prop} (l : List α) (m : α) (h : l.Pairwise R) (hm : l.getLast? = some m) : ∀ x ∈ l, x = m ∨ R x m := by
  intro x hx
  obtain ⟨ys, rfl⟩ := List.getLast?_eq_some_iff.1 hm
  rcases List.mem_append.1 hx with hx | hx
  · exact Or.inr ((List.pairwise_append.1 h).2.2 x hx m (List.mem_singleton.2 rfl))
  · exact Or.inl (List.mem_singleton.1 hx)

/-- **C72.** If the bucket is tidy and the clock has not gone back behind a run in the bucket, a new identifier is after all runs in the bucket. -/
theorem C72_fresh_partial (today : Text) (dirs localDirs : List Text) (ht : TidyBucket dirs) (hday : IsDate today) (hclock : ∀ d n, IsDate d → runName d n ++ ['/'] ∈ dirs → digitsNat d ≤ digitsNat today)
    (t : Text) (h : allocate today dirs localDirs = some t) : t ∉ localDirs ∧ ∃ n, t = runName today n ∧ ∀ d n', IsDate d → runName d n' ++ ['/'] ∈ dirs → IdBefore d n' today n := by
  unfold allocate at h
  dsimp only at h
  by_cases hc : localDirs.contains (today ++ '-' :: Nat.toDigits 10 (nextIdx today dirs)) = true
  · rw [if_pos hc] at h; cases h
  · rw [if_neg hc, Option.some.injEq] at h
    refine ⟨by rw [← h]; simpa using hc, nextIdx today dirs, h.symm, ?_⟩
    intro d n' hd hin
    have hn' : n' < 1000000 := by
      rcases ht _ hin with ⟨d1, n1, hd1, hn1, e⟩ | hno
      · obtain ⟨rfl, rfl⟩ := runName_inj hd hd1 (List.append_cancel_right e)
        exact hn1
      · exfalso
        have := matchId_runName hd n'
        rw [matchId_none hno] at this
        cases this
    have hle := hclock d n' hd hin
    by_cases he : digitsNat d = digitsNat today
    · have hdt := date_inj hd hday he
      subst hdt
      right
      refine ⟨rfl, ?_⟩
      have hmem : runName d n' ∈ getRunIdentifiers dirs := (mem_getRun ht _).2 ⟨d, n', hd, hn', rfl, hin⟩
      unfold nextIdx
      cases hl : (getRunIdentifiers dirs).getLast? with
      | none => rw [List.getLast?_eq_none_iff.1 hl] at hmem; cases hmem
      | some m =>
        dsimp only
        have hmm : m ∈ getRunIdentifiers dirs := List.mem_of_getLast? hl
        obtain ⟨dm, nm, hdm, hnm, rfl, hmin⟩ := (mem_getRun ht _).1 hmm
        have hcl := hclock dm nm hdm hmin
        have hord := pairwise_getLast_or _ _ (C72_listed_partial dirs ht).2 hl _ hmem
        rcases hord with e | hno
        · obtain ⟨rfl, rfl⟩ := runName_inj hd hdm e
          rw [idDate_runName hd, if_pos rfl, idIdx_runName hd]
          omega
        · have hnb : ¬IdBefore dm nm d n' := fun hb => hno ⟨dm, nm, d, n', hdm, hd, rfl, rfl, hb⟩
          unfold IdBefore at hnb
          have hdd : dm = d := by
            refine date_inj hdm hd ?_
            have : ¬digitsNat dm < digitsNat d := fun h => hnb (Or.inl h)
            omega
          subst hdd
          have : ¬nm < n' := fun h => hnb (Or.inr ⟨rfl, h⟩)
          rw [idDate_runName hdm, if_pos rfl, idIdx_runName hdm]
          omega
    · left; omega

/-- The number of the new run is at most one more than a number in use. -/
theorem nextIdx_le (today : Text) (dirs : List Text) (ht : TidyBucket dirs) (k : Nat) (h : ∀ d n, IsDate d → runName d n ++ ['/'] ∈ dirs → n < k) : nextIdx today dirs ≤ k := by
  unfold nextIdx
  cases hl : (getRunIdentifiers dirs).getLast? with
  | none => exact Nat.zero_le _
  | some m =>
    dsimp only
    obtain ⟨dm, nm, hdm, hnm, rfl, hmin⟩ := (mem_getRun ht _).1 (List.mem_of_getLast? hl)
    by_cases he : idDate (runName dm nm) = today
    · rw [if_pos he, idIdx_runName hdm]
      exact h dm nm hdm hmin
    · rw [if_neg he]; exact Nat.zero_le _

theorem nameBefore_asymm {a b : Text} (h : NameBefore a b) : ¬NameBefore b a := by
  rintro ⟨d', n', d, n, hd', hd, rfl, rfl, h2⟩
  obtain ⟨d1, n1, d2, n2, h1, h2', e1, e2, h3⟩ := h
  obtain ⟨rfl, rfl⟩ := runName_inj hd h1 e1
  obtain ⟨rfl, rfl⟩ := runName_inj hd' h2' e2
  unfold IdBefore at h2 h3
  rcases h2 with h2 | ⟨e, h2⟩ <;> rcases h3 with h3 | ⟨e', h3⟩
  · omega
  · rw [e'] at h2; omega
  · rw [e] at h3; omega
  · omega

theorem sorted_eq (done others : List Text) (hruns : ∀ t ∈ done, ∃ d n, IsDate d ∧ n < 1000000 ∧ t = runName d n) (hsort : done.Pairwise NameBefore) (hoth : ∀ x ∈ others, ¬LooksLikeRun x) :
    TidyBucket (others ++ done.map (· ++ ['/'])) ∧ getRunIdentifiers (others ++ done.map (· ++ ['/'])) = done := by
  have ht : TidyBucket (others ++ done.map (· ++ ['/'])) := by
    intro x hx
    rcases List.mem_append.1 hx with hx | hx
    · exact Or.inr (hoth x hx)
    · obtain ⟨t, htm, rfl⟩ := List.mem_map.1 hx
      obtain ⟨d, n, hd, hn, rfl⟩ := hruns t htm
      exact Or.inl ⟨d, n, hd, hn, rfl⟩
  refine ⟨ht, ?_⟩
  have hfm : (others ++ done.map (· ++ ['/'])).filterMap matchId = done := by
    rw [List.filterMap_append]
    have h1 : others.filterMap matchId = [] := by
      rw [List.filterMap_eq_nil_iff]
      exact fun x hx => matchId_none (hoth x hx)
    rw [h1, List.nil_append, List.filterMap_map]
    clear ht hsort h1
    induction done with
    | nil => rfl
    | cons t rest ih =>
      obtain ⟨d, n, hd, hn, e⟩ := hruns t List.mem_cons_self
      have : (matchId ∘ fun x => x ++ ['/']) t = some t := by
        rw [e]; exact matchId_runName hd n
      rw [List.filterMap_cons_some this, ih (fun x hx => hruns x (List.mem_cons_of_mem _ hx))]
  have hperm : (getRunIdentifiers (others ++ done.map (· ++ ['/']))).Perm done := by
    unfold getRunIdentifiers
    rw [hfm]
    exact sortIds_perm done
  have hle : (getRunIdentifiers (others ++ done.map (· ++ ['/']))).Pairwise KeyLe := sortIds_sorted _
  have hkey : done.Pairwise KeyLe := by
    refine List.Pairwise.imp_of_mem ?_ hsort
    intro a b ha hb hab
    obtain ⟨d, n, hd, hn, rfl⟩ := hruns a ha
    obtain ⟨d', n', hd', hn', rfl⟩ := hruns b hb
    unfold KeyLe
    rw [Bool.eq_false_iff]
    intro h
    exact nameBefore_asymm hab ⟨d', n', d, n, hd', hd, rfl, rfl, (idKey_lt hd' hd hn' hn).1 h⟩
  refine List.Perm.eq_of_pairwise ?_ hle hkey hperm
  intro a b ha hb h1 h2
  obtain ⟨d, n, hd, hn, rfl⟩ := hruns a (hperm.mem_iff.1 ha)
  obtain ⟨d', n', hd', hn', rfl⟩ := hruns b hb
  have g1 : ¬IdBefore d' n' d n := fun h => by
    have := (idKey_lt hd' hd hn' hn).2 h
    unfold KeyLe at h1
    rw [h1] at this; cases this
  have g2 : ¬IdBefore d n d' n' := fun h => by
    have := (idKey_lt hd hd' hn hn').2 h
    unfold KeyLe at h2
    rw [h2] at this; cases this
  unfold IdBefore at g1 g2
  have : d = d' := by
    refine date_inj hd hd' ?_
    have a1 : ¬digitsNat d' < digitsNat d := fun h => g1 (Or.inl h)
    have a2 : ¬digitsNat d < digitsNat d' := fun h => g2 (Or.inl h)
    omega
  subst this
  have a1 : ¬n' < n := fun h => g1 (Or.inr ⟨rfl, h⟩)
  have a2 : ¬n < n' := fun h => g2 (Or.inr ⟨rfl, h⟩)
  rw [show n = n' by omega]

theorem history_aux (others : List Text) (hoth : ∀ x ∈ others, ¬LooksLikeRun x) (days : List Text) : ∀ done : List Text, (∀ d ∈ days, IsDate d) → days.Pairwise (fun a b => digitsNat a ≤ digitsNat b) →
    done.length + days.length ≤ 1000000 → (∀ t ∈ done, ∃ d n, IsDate d ∧ n < done.length ∧ t = runName d n ∧ ∀ d' ∈ days, digitsNat d ≤ digitsNat d') → done.Pairwise NameBefore →
    ∃ names, allocateAll days (others ++ done.map (· ++ ['/'])) done = some names ∧ names.length = days.length ∧ (done ++ names).Pairwise NameBefore ∧
      getRunIdentifiers (others ++ (done ++ names).map (· ++ ['/'])) = done ++ names := by
  induction days with
  | nil =>
    intro done _ _ hlen hdone hsort
    refine ⟨[], rfl, rfl, by rw [List.append_nil]; exact hsort, ?_⟩
    rw [List.append_nil]
    refine (sorted_eq done others ?_ hsort hoth).2
    intro t ht
    obtain ⟨d, n, hd, hn, e, _⟩ := hdone t ht
    exact ⟨d, n, hd, by omega, e⟩
  | cons today days ih =>
    intro done hdays hmono hlen hdone hsort
    rw [List.length_cons] at hlen
    rw [List.pairwise_cons] at hmono
    have hday : IsDate today := hdays today List.mem_cons_self
    have hruns : ∀ t ∈ done, ∃ d n, IsDate d ∧ n < 1000000 ∧ t = runName d n := by
      intro t ht
      obtain ⟨d, n, hd, hn, e, _⟩ := hdone t ht
      exact ⟨d, n, hd, by omega, e⟩
    obtain ⟨ht, hlist⟩ := sorted_eq done others hruns hsort hoth
    have hin : ∀ d n, IsDate d → runName d n ++ ['/'] ∈ others ++ done.map (· ++ ['/']) → runName d n ∈ done := by
      intro d n hd h
      have : runName d n ∈ getRunIdentifiers (others ++ done.map (· ++ ['/'])) := by
        refine (mem_getRun ht _).2 ⟨d, n, hd, ?_, rfl, h⟩
        rcases ht _ h with ⟨d1, n1, hd1, hn1, e⟩ | hno
        · obtain ⟨rfl, rfl⟩ := runName_inj hd hd1 (List.append_cancel_right e)
          exact hn1
        · have := matchId_runName hd n
          rw [matchId_none hno] at this
          cases this
      rw [hlist] at this
      exact this
    have hclock : ∀ d n, IsDate d → runName d n ++ ['/'] ∈ others ++ done.map (· ++ ['/']) → digitsNat d ≤ digitsNat today := by
      intro d n hd h
      obtain ⟨d1, n1, hd1, _, e, hle⟩ := hdone _ (hin d n hd h)
      obtain ⟨rfl, rfl⟩ := runName_inj hd hd1 e
      exact hle today List.mem_cons_self
    have hnext := nextIdx_le today _ ht done.length (fun d n hd h => by
      obtain ⟨d1, n1, hd1, hn1, e, _⟩ := hdone _ (hin d n hd h)
      obtain ⟨rfl, rfl⟩ := runName_inj hd hd1 e
      exact hn1)
    -- the new name is after all others
    have hallo : allocate today (others ++ done.map (· ++ ['/'])) [] = some (runName today (nextIdx today (others ++ done.map (· ++ ['/'])))) := by
      unfold allocate
      dsimp only
      rw [if_neg (by simp)]
      rfl
    obtain ⟨_, n, hname, hafter⟩ := C72_fresh_partial today _ [] ht hday hclock _ hallo
    have hnn := (runName_inj hday hday hname).2
    generalize hgen : nextIdx today (others ++ done.map (· ++ ['/'])) = m at *
    have hbefore : ∀ t ∈ done, NameBefore t (runName today m) := by
      intro t htm
      obtain ⟨d, n', hd, hn', e, _⟩ := hdone t htm
      refine ⟨d, n', today, m, hd, hday, e, rfl, ?_⟩
      rw [hnn]
      refine hafter d n' hd ?_
      rw [← e]
      exact List.mem_append.2 (Or.inr (List.mem_map.2 ⟨t, htm, rfl⟩))
    have hnot : runName today m ∉ done := fun h => nameBefore_asymm (hbefore _ h) (hbefore _ h)
    have hallo' : allocate today (others ++ done.map (· ++ ['/'])) done = some (runName today m) := by
      unfold allocate
      dsimp only
      rw [hgen]
      rw [if_neg]
      · rfl
      · intro h
        exact hnot (by simpa [runName] using h)
    have hsort' : (done ++ [runName today m]).Pairwise NameBefore := by
      rw [List.pairwise_append]
      refine ⟨hsort, List.pairwise_singleton _ _, ?_⟩
      intro a ha b hb
      rw [List.mem_singleton.1 hb]
      exact hbefore a ha
    have hih := ih (done ++ [runName today m]) (fun d hd => hdays d (List.mem_cons_of_mem _ hd)) hmono.2 (by rw [List.length_append, List.length_singleton]; omega) (by
      intro t htm
      rw [List.length_append, List.length_singleton]
      rcases List.mem_append.1 htm with htm | htm
      · obtain ⟨d, n', hd, hn', e, hle⟩ := hdone t htm
        exact ⟨d, n', hd, by omega, e, fun d' hd' => hle d' (List.mem_cons_of_mem _ hd')⟩
      · exact ⟨today, m, hday, by omega, List.mem_singleton.1 htm, hmono.1⟩) hsort'
    obtain ⟨names, h1, h2, h3, h4⟩ := hih
    refine ⟨runName today m :: names, ?_, by rw [List.length_cons, h2, List.length_cons], ?_, ?_⟩
    · unfold allocateAll
      rw [hallo']
      dsimp only
      rw [List.map_append, List.map_singleton, ← List.append_assoc] at h1
      rw [h1]
    · rw [show done ++ runName today m :: names = done ++ [runName today m] ++ names by simp]
      exact h3
    · rw [show done ++ runName today m :: names = done ++ [runName today m] ++ names by simp]
      exact h4

/-- **C72 (partial).** Runs on days that never go back, each of which uploads something, up to a million of them: every run gets an identifier, each identifier is after all earlier ones, and the list of identifiers in the bucket is in the
order in which they were allocated. Missing: what happens if the clock goes back, for more than a million runs, after runs that upload nothing, and with directories that only begin like a run; the property fails then. -/
theorem C72_history_partial (others days : List Text) (hoth : ∀ x ∈ others, ¬LooksLikeRun x) (hdays : ∀ d ∈ days, IsDate d) (hmono : days.Pairwise (fun a b => digitsNat a ≤ digitsNat b)) (hlen : days.length ≤ 1000000) :
    ∃ names, allocateAll days others [] = some names ∧ names.length = days.length ∧ names.Pairwise NameBefore ∧ getRunIdentifiers (others ++ names.map (· ++ ['/'])) = names := by
  obtain ⟨names, h1, h2, h3, h4⟩ := history_aux others hoth days [] hdays hmono (by simpa using hlen) (by simp) List.Pairwise.nil
  exact ⟨names, by simpa using h1, h2, by simpa using h3, by simpa using h4⟩

example : allocateAll ["20240101".toList, "20240101".toList, "20240103".toList] ["latest/".toList] [] = some ["20240101-0".toList, "20240101-1".toList, "20240103-0".toList] := by decide +kernel

example : getRunIdentifiers ["20240101-10/".toList, "20240101-9/".toList, "latest/".toList, "20231231-30/".toList] = ["20231231-30".toList, "20240101-9".toList, "20240101-10".toList] := by decide +kernel

/-- **C72 fails** if the clock goes back by a day: an identifier that is in the bucket is handed out again. -/
theorem C72_clock_back_fails : allocate "20240101".toList ["20240101-0/".toList, "20240102-0/".toList] [] = some "20240101-0".toList := by decide +kernel

/-- **C72 fails** after a million runs on one day: run 1000000 sorts before run 999999, so its number is handed out again. -/
theorem C72_million_fails : allocate "20240101".toList ["20240101-999999/".toList, "20240101-1000000/".toList] [] = some "20240101-1000000".toList := by decide +kernel

/-- **C72 fails** if a run dies before its first upload: its identifier is handed out again if the folder is lost, and if the folder is still there, no identifier can be allocated on that day. -/
theorem C72_not_uploaded_fails (dirs : List Text) (today : Text) : ∃ t, allocate today dirs [] = some t ∧ allocate today dirs [t] = none := by
  refine ⟨today ++ '-' :: Nat.toDigits 10 (nextIdx today dirs), ?_, ?_⟩
  · unfold allocate
    dsimp only
    rw [if_neg (by simp)]
  · unfold allocate
    dsimp only
    rw [if_pos (by simp)]

/-- **C72 fails** for a directory that only begins like a run: it is listed as a run, and counted. -/
theorem C72_prefix_fails : getRunIdentifiers ["20240101-7-old/".toList] = ["20240101-7".toList] ∧ allocate "20240101".toList ["20240101-7-old/".toList] [] = some "20240101-8".toList := by decide +kernel

/-! ### C73 -/

theorem objGet_append (a b : List StoredObj) (p : List Text) : objGet (a ++ b) p = match objGet b p with | some x => some x | none => objGet a p := by
  unfold objGet
  rw [List.reverse_append, List.find?_append]
  cases b.reverse.find? (fun o => decide (o.path = p)) with
  | none => rfl
  | some o => rfl

theorem objGet_none {l : List StoredObj} {p : List Text} : objGet l p = none ↔ ∀ o ∈ l, o.path ≠ p := by
  unfold objGet
  cases h : l.reverse.find? (fun o => decide (o.path = p)) with
  | none =>
    refine ⟨fun _ o ho e => ?_, fun _ => rfl⟩
    have := List.find?_eq_none.1 h o (List.mem_reverse.2 ho)
    exact this (decide_eq_true e)
  | some o =>
    refine ⟨fun h => (by cases h), fun hall => ?_⟩
    exact absurd (by simpa using List.find?_some h) (hall o (List.mem_reverse.1 (List.mem_of_find?_eq_some h)))

theorem objGet_unique {l : List StoredObj} {o : StoredObj} (ho : o ∈ l) (hu : ∀ q ∈ l, q.path = o.path → q.content = o.content) : objGet l o.path = some o.content := by
  cases h : objGet l o.path with
  | none => exact absurd rfl (objGet_none.1 h o ho)
  | some x =>
    unfold objGet at h
    cases hf : l.reverse.find? (fun q => decide (q.path = o.path)) with
    | none => rw [hf] at h; cases h
    | some q =>
      rw [hf, Option.some.injEq] at h
      rw [← h, hu q (List.mem_reverse.1 (List.mem_of_find?_eq_some hf)) (by simpa using List.find?_some hf)]

theorem objGet_unique_append (before : List StoredObj) {l : List StoredObj} {o : StoredObj} (ho : o ∈ l) (hu : ∀ q ∈ l, q.path = o.path → q.content = o.content) : objGet (before ++ l) o.path = some o.content := by
  rw [objGet_append, objGet_unique ho hu]

theorem mem_uploadAs {dest : List Text} {files : List WalkFile} {o : StoredObj} : o ∈ uploadAs dest files ↔ ∃ f ∈ files, f.symlink = false ∧ o = ⟨dest ++ f.path, f.content⟩ := by
  unfold uploadAs
  rw [List.mem_map]
  constructor
  · rintro ⟨f, hf, rfl⟩
    rw [List.mem_filter] at hf
    exact ⟨f, hf.1, by simpa using hf.2, rfl⟩
  · rintro ⟨f, hf, hs, rfl⟩
    exact ⟨f, List.mem_filter.2 ⟨hf, by simp [hs]⟩, rfl⟩

theorem mem_uploadAll {run : Text} {groups : List (List WalkFile)} {o : StoredObj} : o ∈ uploadAll run groups ↔
    ∃ g ∈ groups, ∃ f ∈ g, f.symlink = false ∧ (o = ⟨[run, "clubcard-all".toList] ++ f.path, f.content⟩ ∨ o = ⟨["latest".toList] ++ f.path, f.content⟩) := by
  induction groups with
  | nil => simp [uploadAll]
  | cons g rest ih =>
    unfold uploadAll
    rw [List.mem_append, List.mem_append, ih, mem_uploadAs, mem_uploadAs]
    constructor
    · rintro ((⟨f, hf, hs, e⟩ | ⟨f, hf, hs, e⟩) | ⟨g', hg, h⟩)
      · exact ⟨g, List.mem_cons_self, f, hf, hs, Or.inl e⟩
      · exact ⟨g, List.mem_cons_self, f, hf, hs, Or.inr e⟩
      · exact ⟨g', List.mem_cons_of_mem _ hg, h⟩
    · rintro ⟨g', hg, f, hf, hs, h⟩
      rcases List.mem_cons.1 hg with e | hg
      · rw [e] at hf
        rcases h with h | h
        · exact Or.inl (Or.inl ⟨f, hf, hs, h⟩)
        · exact Or.inl (Or.inr ⟨f, hf, hs, h⟩)
      · exact Or.inr ⟨g', hg, f, hf, hs, h⟩

end Verif.Props

namespace Verif.Spec

/-- The folder of a run as the upload scripts find it: no two files with one path; when the data are uploaded the filters do not exist yet, and no file is called `completed`. -/
structure RunFolder (run : Text) (data : List WalkFile) (groups : List (List WalkFile)) (prio : List WalkFile) : Prop where
  notLatest : run ≠ "latest".toList
  dataOnce : ∀ f ∈ data, ∀ f' ∈ data, f.path = f'.path → f = f'
  allOnce : ∀ g ∈ groups, ∀ f ∈ g, ∀ g' ∈ groups, ∀ f' ∈ g', f.path = f'.path → f = f'
  prioOnce : ∀ f ∈ prio, ∀ f' ∈ prio, f.path = f'.path → f = f'
  dataApart : ∀ f ∈ data, f.path ≠ ["completed".toList] ∧ ∀ rest, f.path ≠ "clubcard-all".toList :: rest ∧ f.path ≠ "clubcard-priority".toList :: rest

/-- Every regular file of the folder is in the bucket with its contents; the files of `clubcard-all` also in `latest`. -/
def AllUploaded (writes : List StoredObj) (run : Text) (data : List WalkFile) (groups : List (List WalkFile)) (prio : List WalkFile) : Prop :=
  (∀ f ∈ data, f.symlink = false → objGet writes (run :: f.path) = some f.content) ∧
  (∀ g ∈ groups, ∀ f ∈ g, f.symlink = false → objGet writes (run :: "clubcard-all".toList :: f.path) = some f.content ∧ objGet writes ("latest".toList :: f.path) = some f.content) ∧
  (∀ f ∈ prio, f.symlink = false → objGet writes (run :: "clubcard-priority".toList :: f.path) = some f.content)

end Verif.Spec

namespace Verif.Props
open Verif.Spec

theorem names_ne : "clubcard-all".toList ≠ "clubcard-priority".toList ∧ "clubcard-all".toList ≠ "completed".toList ∧ "clubcard-priority".toList ≠ "completed".toList := by decide

/-- The writes before the marker. -/
def beforeMarker (run : Text) (data : List WalkFile) (groups : List (List WalkFile)) (prio : List WalkFile) : List StoredObj :=
  uploadData run data ++ (uploadAll run groups ++ uploadAs [run, "clubcard-priority".toList] prio)

theorem uploadRun_marker (run : Text) (data : List WalkFile) (groups : List (List WalkFile)) (prio : List WalkFile) :
    uploadRun run data groups prio = beforeMarker run data groups prio ++ [⟨[run, "completed".toList], []⟩] ∨ uploadRun run data groups prio = uploadData run data := by
  unfold uploadRun uploadMlbf beforeMarker
  by_cases h : groups.any (fun g => g.any (fun f => decide (f.path = ["filter".toList]))) = true
  · rw [if_pos h]; left; simp [List.append_assoc]
  · rw [if_neg h]; right; simp

/-- Where the writes before the marker go. -/
theorem mem_beforeMarker {run : Text} {data : List WalkFile} {groups : List (List WalkFile)} {prio : List WalkFile} {o : StoredObj} (h : o ∈ beforeMarker run data groups prio) :
    (∃ f ∈ data, o = ⟨run :: f.path, f.content⟩) ∨ (∃ g ∈ groups, ∃ f ∈ g, o = ⟨run :: "clubcard-all".toList :: f.path, f.content⟩) ∨
    (∃ g ∈ groups, ∃ f ∈ g, o = ⟨"latest".toList :: f.path, f.content⟩) ∨ (∃ f ∈ prio, o = ⟨run :: "clubcard-priority".toList :: f.path, f.content⟩) := by
  unfold beforeMarker at h
  rcases List.mem_append.1 h with h | h
  · obtain ⟨f, hf, _, e⟩ := mem_uploadAs.1 h
    exact Or.inl ⟨f, hf, e⟩
  · rcases List.mem_append.1 h with h | h
    · obtain ⟨g, hg, f, hf, _, e | e⟩ := mem_uploadAll.1 h
      · exact Or.inr (Or.inl ⟨g, hg, f, hf, e⟩)
      · exact Or.inr (Or.inr (Or.inl ⟨g, hg, f, hf, e⟩))
    · obtain ⟨f, hf, _, e⟩ := mem_uploadAs.1 h
      exact Or.inr (Or.inr (Or.inr ⟨f, hf, e⟩))

theorem marker_not_before {run : Text} {data : List WalkFile} {groups : List (List WalkFile)} {prio : List WalkFile} (hf : RunFolder run data groups prio) : ∀ o ∈ beforeMarker run data groups prio, o.path ≠ [run, "completed".toList] := by
  intro o ho e
  obtain ⟨n1, n2, n3⟩ := names_ne
  rcases mem_beforeMarker ho with ⟨f, hfm, rfl⟩ | ⟨g, hg, f, hfm, rfl⟩ | ⟨g, hg, f, hfm, rfl⟩ | ⟨f, hfm, rfl⟩
  · injection e with _ e
    exact (hf.dataApart f hfm).1 e
  · injection e with _ e
    injection e with e _
    exact n2 e
  · injection e with e _
    exact hf.notLatest e.symm
  · injection e with _ e
    injection e with e _
    exact n3 e

theorem write_unique {run : Text} {data : List WalkFile} {groups : List (List WalkFile)} {prio : List WalkFile} (hf : RunFolder run data groups prio) :
    ∀ o ∈ beforeMarker run data groups prio, ∀ q ∈ beforeMarker run data groups prio, q.path = o.path → q.content = o.content := by
  obtain ⟨n1, n2, n3⟩ := names_ne
  have hnl := hf.notLatest
  intro o ho q hq e
  rcases mem_beforeMarker ho with ⟨f, hfm, rfl⟩ | ⟨g, hg, f, hfm, rfl⟩ | ⟨g, hg, f, hfm, rfl⟩ | ⟨f, hfm, rfl⟩ <;>
    rcases mem_beforeMarker hq with ⟨f', hfm', rfl⟩ | ⟨g', hg', f', hfm', rfl⟩ | ⟨g', hg', f', hfm', rfl⟩ | ⟨f', hfm', rfl⟩
  · injection e with _ e; rw [hf.dataOnce f' hfm' f hfm e]
  · injection e with _ e; exact absurd e.symm ((hf.dataApart f hfm).2 _).1
  · injection e with e _; exact absurd e.symm hnl
  · injection e with _ e; exact absurd e.symm ((hf.dataApart f hfm).2 _).2
  · injection e with _ e; exact absurd e ((hf.dataApart f' hfm').2 _).1
  · injection e with _ e; injection e with _ e; rw [hf.allOnce g' hg' f' hfm' g hg f hfm e]
  · injection e with e _; exact absurd e.symm hnl
  · injection e with _ e; injection e with e _; exact absurd e.symm n1
  · injection e with e _; exact absurd e hnl
  · injection e with e _; exact absurd e hnl
  · injection e with _ e; rw [hf.allOnce g' hg' f' hfm' g hg f hfm e]
  · injection e with e _; exact absurd e hnl
  · injection e with _ e; exact absurd e ((hf.dataApart f' hfm').2 _).2
  · injection e with _ e; injection e with e _; exact absurd e n1
  · injection e with e _; exact absurd e.symm hnl
  · injection e with _ e; injection e with _ e; rw [hf.prioOnce f' hfm' f hfm e]

/-- **C73.** At every point at which the upload may stop, if the marker of the run is in the bucket, then all regular files of the run are there with their contents. -/
theorem C73_completed_last (run : Text) (data : List WalkFile) (groups : List (List WalkFile)) (prio : List WalkFile) (before : List StoredObj) (hf : RunFolder run data groups prio) (hnew : runReady before run = false) (k : Nat)
    (h : runReady (before ++ (uploadRun run data groups prio).take k) run = true) : AllUploaded (before ++ (uploadRun run data groups prio).take k) run data groups prio := by
  unfold runReady at h hnew
  have hfresh : objGet before [run, "completed".toList] = none := by
    cases hx : objGet before [run, "completed".toList] with
    | none => rfl
    | some x => rw [hx] at hnew; cases hnew
  rw [objGet_append, hfresh] at h
  have hex : ∃ o ∈ (uploadRun run data groups prio).take k, o.path = [run, "completed".toList] := by
    cases hx : objGet ((uploadRun run data groups prio).take k) [run, "completed".toList] with
    | none => rw [hx] at h; cases h
    | some x =>
      apply Classical.byContradiction
      intro hno
      rw [objGet_none.2 (fun o ho e => hno ⟨o, ho, e⟩)] at hx
      cases hx
  obtain ⟨o, ho, hop⟩ := hex
  have hmb := marker_not_before hf
  rcases uploadRun_marker run data groups prio with hu | hu
  · rw [hu] at ho ⊢
    have hk : beforeMarker run data groups prio ++ [(⟨[run, "completed".toList], []⟩ : StoredObj)] = (beforeMarker run data groups prio ++ [(⟨[run, "completed".toList], []⟩ : StoredObj)]).take k := by
      symm
      apply List.take_of_length_le
      rw [List.length_append, List.length_singleton]
      by_cases hkl : k ≤ (beforeMarker run data groups prio).length
      · rw [List.take_append_of_le_length hkl] at ho
        exact absurd hop (hmb o (List.mem_of_mem_take ho))
      · omega
    rw [← hk]
    have huniq : ∀ o ∈ beforeMarker run data groups prio, objGet (before ++ (beforeMarker run data groups prio ++ [⟨[run, "completed".toList], []⟩])) o.path = some o.content := by
      intro o ho
      refine objGet_unique_append before (List.mem_append.2 (Or.inl ho)) ?_
      intro q hq e
      rcases List.mem_append.1 hq with hq | hq
      · exact write_unique hf o ho q hq e
      · rw [List.mem_singleton.1 hq] at e
        exact absurd e.symm (hmb o ho)
    refine ⟨?_, ?_, ?_⟩
    · intro f hfm hs
      exact huniq ⟨run :: f.path, f.content⟩ (List.mem_append.2 (Or.inl (mem_uploadAs.2 ⟨f, hfm, hs, rfl⟩)))
    · intro g hg f hfm hs
      refine ⟨huniq ⟨run :: "clubcard-all".toList :: f.path, f.content⟩ ?_, huniq ⟨"latest".toList :: f.path, f.content⟩ ?_⟩
      · exact List.mem_append.2 (Or.inr (List.mem_append.2 (Or.inl (mem_uploadAll.2 ⟨g, hg, f, hfm, hs, Or.inl rfl⟩))))
      · exact List.mem_append.2 (Or.inr (List.mem_append.2 (Or.inl (mem_uploadAll.2 ⟨g, hg, f, hfm, hs, Or.inr rfl⟩))))
    · intro f hfm hs
      exact huniq ⟨run :: "clubcard-priority".toList :: f.path, f.content⟩ (List.mem_append.2 (Or.inr (List.mem_append.2 (Or.inr (mem_uploadAs.2 ⟨f, hfm, hs, rfl⟩)))))
  · exfalso
    rw [hu] at ho
    exact hmb o (List.mem_append.2 (Or.inl (List.mem_of_mem_take ho))) hop

/-- **C73.** If the upload is not stopped, and there is a filter, the marker is written. -/
theorem C73_completed_written (run : Text) (data : List WalkFile) (groups : List (List WalkFile)) (prio : List WalkFile) (before : List StoredObj) (hfil : ∃ g ∈ groups, ∃ f ∈ g, f.path = ["filter".toList]) :
    runReady (before ++ uploadRun run data groups prio) run = true := by
  obtain ⟨g, hg, f, hf, hp⟩ := hfil
  unfold runReady uploadRun uploadMlbf
  rw [if_pos (List.any_eq_true.2 ⟨g, hg, List.any_eq_true.2 ⟨f, hf, decide_eq_true hp⟩⟩)]
  rw [← List.append_assoc, ← List.append_assoc, ← List.append_assoc, objGet_append]
  have : objGet [(⟨[run, "completed".toList], []⟩ : StoredObj)] [run, "completed".toList] = some [] :=
    objGet_unique (o := ⟨[run, "completed".toList], []⟩) List.mem_cons_self (fun q hq _ => by rw [List.mem_singleton.1 hq])
  rw [this]
  rfl

/-- **C73.** Without a filter in `clubcard-all` the marker is never written. -/
theorem C73_no_filter (run : Text) (data : List WalkFile) (groups : List (List WalkFile)) (prio : List WalkFile) (before : List StoredObj) (hf : RunFolder run data groups prio) (hnew : runReady before run = false)
    (hfil : ∀ g ∈ groups, ∀ f ∈ g, f.path ≠ ["filter".toList]) (k : Nat) : runReady (before ++ (uploadRun run data groups prio).take k) run = false := by
  have hu : uploadRun run data groups prio = uploadData run data := by
    unfold uploadRun uploadMlbf
    rw [if_neg, List.append_nil]
    intro h
    obtain ⟨g, hg, h⟩ := List.any_eq_true.1 h
    obtain ⟨f, hfm, h⟩ := List.any_eq_true.1 h
    exact hfil g hg f hfm (of_decide_eq_true h)
  unfold runReady at hnew ⊢
  rw [hu, objGet_append, objGet_none.2]
  · exact hnew
  · intro o ho
    exact marker_not_before hf o (List.mem_append.2 (Or.inl (List.mem_of_mem_take ho)))

/-- **C73.** A run that is marked complete is valid for the channel with all reasons if the files that validity asks for were made. -/
theorem C73_valid (run : Text) (data : List WalkFile) (groups : List (List WalkFile)) (prio : List WalkFile) (before : List StoredObj) (hf : RunFolder run data groups prio) (hnew : runReady before run = false) (k : Nat)
    (h : runReady (before ++ (uploadRun run data groups prio).take k) run = true) (delta : Text) (hfil : ∃ g ∈ groups, ∃ f ∈ g, f.symlink = false ∧ f.path = ["filter".toList])
    (hdel : ∃ g ∈ groups, ∃ f ∈ g, f.symlink = false ∧ f.path = [delta]) (hct : ∃ f ∈ data, f.symlink = false ∧ f.path = ["ct-logs.json".toList]) :
    runValid (before ++ (uploadRun run data groups prio).take k) run "clubcard-all".toList delta = true := by
  obtain ⟨h1, h2, h3⟩ := C73_completed_last run data groups prio before hf hnew k h
  obtain ⟨g, hg, f, hfm, hs, e⟩ := hfil
  obtain ⟨g', hg', f', hfm', hs', e'⟩ := hdel
  obtain ⟨c, hc, hs'', e''⟩ := hct
  have a := (h2 g hg f hfm hs).1
  have b := (h2 g' hg' f' hfm' hs').1
  have d := h1 c hc hs''
  rw [e] at a
  rw [e'] at b
  rw [e''] at d
  unfold runValid
  rw [a, b, d]
  rfl

/-- **C73 (all channels).** The same for every channel that the publisher knows, in use or not, if both generations have made their filters: each reads from a folder that the upload fills. -/
theorem C73_channels_valid (run : Text) (data : List WalkFile) (groups : List (List WalkFile)) (prio : List WalkFile) (before : List StoredObj) (hf : RunFolder run data groups prio) (hnew : runReady before run = false) (k : Nat)
    (h : runReady (before ++ (uploadRun run data groups prio).take k) run = true) (delta : Text) (hfil : ∃ g ∈ groups, ∃ f ∈ g, f.symlink = false ∧ f.path = ["filter".toList])
    (hdel : ∃ g ∈ groups, ∃ f ∈ g, f.symlink = false ∧ f.path = [delta]) (hfil' : ∃ f ∈ prio, f.symlink = false ∧ f.path = ["filter".toList])
    (hdel' : ∃ f ∈ prio, f.symlink = false ∧ f.path = [delta]) (hct : ∃ f ∈ data, f.symlink = false ∧ f.path = ["ct-logs.json".toList]) :
    ∀ ch ∈ channels, runValid (before ++ (uploadRun run data groups prio).take k) run ch.dir delta = true := by
  have hall := C73_valid run data groups prio before hf hnew k h delta hfil hdel hct
  have hprio : runValid (before ++ (uploadRun run data groups prio).take k) run "clubcard-priority".toList delta = true := by
    obtain ⟨h1, _, h3⟩ := C73_completed_last run data groups prio before hf hnew k h
    obtain ⟨f, hfm, hs, e⟩ := hfil'
    obtain ⟨f', hfm', hs', e'⟩ := hdel'
    obtain ⟨c, hc, hs'', e''⟩ := hct
    have a := h3 f hfm hs
    have b := h3 f' hfm' hs'
    have d := h1 c hc hs''
    rw [e] at a
    rw [e'] at b
    rw [e''] at d
    unfold runValid
    rw [a, b, d]
    rfl
  intro ch hch
  rcases List.mem_cons.1 hch with rfl | hch
  · exact hall
  rcases List.mem_cons.1 hch with rfl | hch
  · exact hall
  rcases List.mem_cons.1 hch with rfl | hch
  · exact hprio
  · cases hch

def exData : List WalkFile := [⟨["timestamp".toList], [1], false⟩, ⟨["ct-logs.json".toList], [2], false⟩, ⟨["known".toList, "A".toList], [3], false⟩, ⟨["log".toList, "a.INFO".toList], [], true⟩]
def exAll : List (List WalkFile) := [[⟨["filter".toList], [4], false⟩, ⟨["filter.delta".toList], [5], false⟩, ⟨["revset.bin".toList], [6], false⟩], [⟨["delta".toList, "A".toList], [7], false⟩]]

theorem exFolder : RunFolder "20240101-0".toList exData exAll [] :=
  ⟨by decide, by decide, by decide, by decide, by
    intro f hf
    refine ⟨?_, ?_⟩
    · revert f; decide
    · intro rest
      simp only [exData, List.mem_cons, List.not_mem_nil, or_false] at hf
      rcases hf with rfl | rfl | rfl | rfl <;> exact ⟨fun e => by injection e with e _; revert e; decide, fun e => by injection e with e _; revert e; decide⟩⟩

example : runReady (uploadRun "20240101-0".toList exData exAll []) "20240101-0".toList = true ∧ runReady ((uploadRun "20240101-0".toList exData exAll []).take 11) "20240101-0".toList = false := by decide +kernel

/-- **C73 fails** for the priority channel: if the second generation makes nothing (the program ends with exit code 0 if it cannot make its output folder, rust-create-cascade/src/main.rs:775-785), the run is marked complete although
the channel has no filter. The publisher notices this with its check of validity. -/
theorem C73_priority_missing_fails : runReady (uploadRun "20240101-0".toList exData exAll []) "20240101-0".toList = true ∧
    runValid (uploadRun "20240101-0".toList exData exAll []) "20240101-0".toList "clubcard-priority".toList "filter.delta".toList = false := by decide +kernel

/-! ### each theorem applied -/

def exPrio : List WalkFile := [⟨["filter".toList], [8], false⟩, ⟨["filter.delta".toList], [9], false⟩]

theorem exFolderPrio : RunFolder "20240101-0".toList exData exAll exPrio := ⟨by decide, by decide, by decide, by decide, exFolder.dataApart⟩

example := C73_channels_valid "20240101-0".toList exData exAll exPrio [] exFolderPrio rfl 100 (by decide +kernel) "filter.delta".toList (by decide) (by decide) (by decide) (by decide) (by decide)

/-- A bucket with a run, and a folder that is none. -/
theorem exTidy : TidyBucket ["20240101-9/".toList, "latest/".toList] := by
  intro x hx
  rcases List.mem_cons.1 hx with rfl | hx
  · exact Or.inl ⟨"20240101".toList, 9, ⟨rfl, by decide⟩, by decide, by decide⟩
  · rw [List.mem_singleton.1 hx]
    refine Or.inr ?_
    rintro ⟨d, c, rest, hd, _, _, e⟩
    have := congrArg List.length e
    rw [List.length_append, hd.1] at this
    have e2 : "latest/".toList.length = 7 := rfl
    omega

example : "20240101-9".toList ∈ getRunIdentifiers ["20240101-9/".toList, "latest/".toList] :=
  ((C72_listed_partial _ exTidy).1 _).2 ⟨"20240101".toList, 9, ⟨rfl, by decide⟩, by decide, by decide, by decide⟩

/-- The next run of the day. -/
example : "20240101-10".toList ∉ ["20240101-8".toList] :=
  (C72_fresh_partial "20240101".toList _ ["20240101-8".toList] exTidy ⟨rfl, by decide⟩ (fun d n hd h => by
    have e : "20240101-9".toList = runName d n := by
      rcases List.mem_cons.1 h with h | h
      · exact (List.append_cancel_right (h.trans (rfl : _ = "20240101-9".toList ++ ['/']))).symm
      · have := congrArg List.length (List.mem_singleton.1 h)
        unfold runName at this
        rw [List.length_append, List.length_append, hd.1] at this
        have e2 : "latest/".toList.length = 7 := rfl
        omega
    have e' : runName "20240101".toList 9 = "20240101-9".toList := by decide
    rw [← e'] at e
    rw [(runName_inj ⟨rfl, by decide⟩ hd e).1]
    exact Nat.le_refl _) "20240101-10".toList (by decide +kernel)).1

/-- Stopped after any number of writes: if the run is marked complete, all is there. -/
example (k : Nat) (h : runReady ([] ++ (uploadRun "20240101-0".toList exData exAll []).take k) "20240101-0".toList = true) :
    AllUploaded ([] ++ (uploadRun "20240101-0".toList exData exAll []).take k) "20240101-0".toList exData exAll [] :=
  C73_completed_last _ exData exAll [] [] exFolder rfl k h

/-- At the end it is marked complete. -/
example : AllUploaded ([] ++ (uploadRun "20240101-0".toList exData exAll []).take 100) "20240101-0".toList exData exAll [] :=
  C73_completed_last _ exData exAll [] [] exFolder rfl 100 (by decide +kernel)

example (before : List StoredObj) : runReady (before ++ uploadRun "20240101-0".toList exData exAll []) "20240101-0".toList = true :=
  C73_completed_written _ exData exAll [] before ⟨_, List.mem_cons_self, _, List.mem_cons_self, rfl⟩

/-- The generation made no filter. -/
example (k : Nat) : runReady ([] ++ (uploadRun "20240101-0".toList exData [[⟨["delta".toList, "A".toList], [7], false⟩]] []).take k) "20240101-0".toList = false :=
  C73_no_filter _ exData [[⟨["delta".toList, "A".toList], [7], false⟩]] [] [] ⟨by decide, by decide, by decide, by decide, exFolder.dataApart⟩ rfl (by decide) k

end Verif.Props
