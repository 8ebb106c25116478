import Verif.Model.Lease
import Verif.Props.Commit
/-!
Property C91: the commit lock in time.
-/
namespace Verif.Spec

/-- Nobody else gets in between: what lies between two entries of the same process is of this process. -/
def Uninterrupted (trace : List Nat) : Prop := ∀ p a b c, trace = a ++ p :: (b ++ p :: c) → ∀ q ∈ b, q = p

end Verif.Spec

namespace Verif
open Verif.Spec

/-- The token and time of a process that was given the lock. -/
def LPhase.lease : LPhase → Option (Nat × Nat)
  | .holding t g => some (t, g)
  | .inside t g => some (t, g)
  | .releasing t g => some (t, g)
  | _ => none

/-- Has the process been given the lock already, or ended? -/
def LPhase.past : LPhase → Bool
  | .inside _ _ => true
  | .releasing _ _ => true
  | .gone => true
  | _ => false

structure LeaseInv (s : Lease) : Prop where
  token : ∀ p t g, (s.procs p).lease = some (t, g) → t < s.fresh
  locked : ∀ t e, s.lock = some (t, e) → t < s.fresh
  own : ∀ p q t g g', (s.procs p).lease = some (t, g) → (s.procs q).lease = some (t, g') → p = q
  valid : ∀ p t g, (s.procs p).lease = some (t, g) → s.now ≤ g + leaseTime → s.lock = some (t, g + leaseTime)
  traced : ∀ p ∈ s.trace, (s.procs p).past = true
  head : ∀ p t g, s.procs p = .inside t g → s.now ≤ g + leaseTime → ∃ a n, s.trace = a ++ List.replicate n p ∧ p ∉ a
  good : Uninterrupted s.trace

theorem LeaseInv.only {s : Lease} (h : LeaseInv s) {p q t t' g g' : Nat} (hp : (s.procs p).lease = some (t, g)) (hq : (s.procs q).lease = some (t', g'))
    (h1 : s.now ≤ g + leaseTime) (h2 : s.now ≤ g' + leaseTime) : p = q := by
  have e1 := h.valid p t g hp h1
  have e2 := h.valid q t' g' hq h2
  rw [e1, Option.some.injEq, Prod.mk.injEq] at e2
  obtain ⟨e, _⟩ := e2
  subst e
  exact h.own p q t g g' hp hq

theorem set_self (s : Lease) (p : Nat) (x : LPhase) : (s.set p x).procs p = x := by simp [Lease.set]
theorem set_ne (s : Lease) {p q : Nat} (x : LPhase) (h : q ≠ p) : (s.set p x).procs q = s.procs q := by simp [Lease.set, h]

/-- A process moves on with the token it has, or loses it. -/
theorem leaseInv_set {s : Lease} (h : LeaseInv s) (p : Nat) (x : LPhase) (hl : x.lease = none ∨ x.lease = (s.procs p).lease)
    (hp : (s.procs p).past = true → x.past = true) (hin : ∀ t g, x = .inside t g → s.procs p = .inside t g ∨ (s.procs p).past = false) : LeaseInv (s.set p x) := by
  have back : ∀ q t g, ((s.set p x).procs q).lease = some (t, g) → (s.procs q).lease = some (t, g) := by
    intro q t g hq
    by_cases e : q = p
    · subst e
      rw [set_self] at hq
      rcases hl with hl | hl
      · rw [hl] at hq; cases hq
      · rw [← hl]; exact hq
    · rw [set_ne s x e] at hq; exact hq
  refine ⟨fun q t g hq => h.token q t g (back q t g hq), h.locked, fun q r t g g' hq hr => h.own q r t g g' (back q t g hq) (back r t g' hr),
    fun q t g hq hn => h.valid q t g (back q t g hq) hn, fun q hq => ?_, fun q t g hq hn => ?_, h.good⟩
  · by_cases e : q = p
    · subst e; rw [set_self]; exact hp (h.traced q hq)
    · rw [set_ne s x e]; exact h.traced q hq
  · by_cases e : q = p
    · subst e
      rw [set_self] at hq
      rcases hin t g hq with h' | h'
      · exact h.head q t g h' hn
      · refine ⟨s.trace, 0, by simp; rfl, fun hm => ?_⟩
        have := h.traced q hm
        rw [h'] at this; cases this
    · rw [set_ne s x e] at hq; exact h.head q t g hq hn

/-- One more operation of the process that had the last one. -/
theorem uninterrupted_snoc {a : List Nat} {n p : Nat} (h : Uninterrupted (a ++ List.replicate n p)) (hp : p ∉ a) : Uninterrupted (a ++ List.replicate n p ++ [p]) := by
  intro q x b c he r hr
  rcases List.eq_nil_or_concat c with rfl | ⟨c', y, rfl⟩
  · -- the last entry is the new one
    have he' : (a ++ List.replicate n p) ++ [p] = (x ++ q :: b) ++ [q] := by rw [he]; simp
    obtain ⟨e1, e2⟩ := List.append_inj' he' rfl
    have e2 : p = q := by simpa using e2
    subst e2
    rcases List.append_eq_append_iff.1 e1 with ⟨u, f1, f2⟩ | ⟨u, f1, f2⟩
    · have hm : r ∈ List.replicate n p := by rw [f2]; simp [hr]
      exact (List.mem_replicate.1 hm).2
    · cases u with
      | nil =>
        rw [List.nil_append] at f2
        have hm : r ∈ List.replicate n p := by rw [← f2]; simp [hr]
        exact (List.mem_replicate.1 hm).2
      | cons z u =>
        rw [List.cons_append, List.cons.injEq] at f2
        exact absurd (by rw [f1, f2.1]; simp) hp
  · have he' : (a ++ List.replicate n p) ++ [p] = (x ++ q :: (b ++ q :: c')) ++ [y] := by rw [he]; simp [List.concat_eq_append]
    obtain ⟨e1, e2⟩ := List.append_inj' he' rfl
    exact h q x b c' e1 r hr

theorem hasLock_iff {s : Lease} {t : Nat} : s.hasLock t = true ↔ ∃ e, s.lock = some (t, e) ∧ s.now ≤ e := by
  unfold Lease.hasLock
  split
  · rename_i t' e he
    rw [Bool.and_eq_true, decide_eq_true_eq, decide_eq_true_eq, he]
    constructor
    · rintro ⟨h1, rfl⟩; exact ⟨e, rfl, h1⟩
    · rintro ⟨e', h1, h2⟩
      rw [Option.some.injEq, Prod.mk.injEq] at h1
      exact ⟨by omega, h1.1⟩
  · rename_i he
    rw [he]
    constructor
    · intro h; cases h
    · rintro ⟨_, h, _⟩; cases h

theorem leaseInv_step {s : Lease} (h : LeaseInv s) (a : LAct) (ha : a ≠ .lose) (hl : (s.step a).late = false) : LeaseInv (s.step a) := by
  cases a with
  | lose => exact absurd rfl ha
  | tick now =>
    simp only [Lease.step]
    split
    · rename_i hn
      exact ⟨h.token, h.locked, h.own, fun p t g hp hg => h.valid p t g hp (by dsimp only at hg; omega), h.traced,
        fun p t g hp hg => h.head p t g hp (by dsimp only at hg; omega), h.good⟩
    · exact h
  | start p =>
    simp only [Lease.step]
    split
    · rename_i hp
      exact leaseInv_set h p _ (Or.inl rfl) (fun hx => by rw [hp] at hx; cases hx) (fun t g hx => by cases hx)
    · exact h
  | giveUp p =>
    simp only [Lease.step]
    split
    · exact leaseInv_set h p _ (Or.inl rfl) (fun _ => rfl) (fun t g hx => by cases hx)
    · exact h
  | die p => exact leaseInv_set h p _ (Or.inl rfl) (fun _ => rfl) (fun t g hx => by cases hx)
  | enter p =>
    simp only [Lease.step]
    split
    · rename_i t g hp
      split
      · exact leaseInv_set h p _ (Or.inr (by rw [hp]; rfl)) (fun _ => rfl) (fun t g hx => Or.inr (by rw [hp]; rfl))
      · exact h
    · exact h
  | test p =>
    simp only [Lease.step]
    split
    · rename_i t g hp
      split
      · exact leaseInv_set h p _ (Or.inr (by rw [hp]; rfl)) (fun _ => rfl) (fun t g hx => by cases hx)
      · exact leaseInv_set h p _ (Or.inl rfl) (fun _ => rfl) (fun t g hx => by cases hx)
    · rename_i t g hp
      split
      · exact leaseInv_set h p _ (Or.inr (by rw [hp]; rfl)) (fun _ => rfl) (fun t g hx => by cases hx)
      · exact leaseInv_set h p _ (Or.inl rfl) (fun _ => rfl) (fun t g hx => by cases hx)
    · exact h
  | del p =>
    simp only [Lease.step] at hl ⊢
    split at hl
    · rename_i t g hp
      simp only [Bool.or_eq_false_iff, Lease.tooLate, decide_eq_false_iff_not, Nat.not_lt] at hl
      have hps : (s.procs p).lease = some (t, g) := by rw [hp]; rfl
      have hi := leaseInv_set h p .gone (Or.inl rfl) (fun _ => rfl) (fun t g hx => by cases hx)
      refine ⟨hi.token, (fun t e hx => by cases hx), hi.own, fun q t' g' hq hg => ?_, hi.traced, hi.head, hi.good⟩
      exfalso
      have hqp : q ≠ p := by
        intro e; subst e
        dsimp only at hq
        rw [set_self] at hq; cases hq
      dsimp only at hq
      rw [set_ne s _ hqp] at hq
      exact hqp (h.only hq hps hg hl.2)
    · exact h
  | work p =>
    simp only [Lease.step] at hl ⊢
    split at hl
    · rename_i t g hp
      simp only [Bool.or_eq_false_iff, Lease.tooLate, decide_eq_false_iff_not, Nat.not_lt] at hl
      have hps : (s.procs p).lease = some (t, g) := by rw [hp]; rfl
      obtain ⟨x, n, hx, hpx⟩ := h.head p t g hp hl.2
      refine ⟨h.token, h.locked, h.own, h.valid, fun q hq => ?_, fun q t' g' hq hg => ?_, ?_⟩
      · dsimp only at hq ⊢
        rcases List.mem_append.1 hq with hq | hq
        · exact h.traced q hq
        · rw [List.mem_singleton.1 hq, hp]; rfl
      · dsimp only at hq hg ⊢
        have : q = p := h.only (by rw [hq]; rfl) hps hg hl.2
        subst this
        exact ⟨x, n + 1, by rw [hx, List.replicate_succ']; simp, hpx⟩
      · dsimp only
        rw [hx]
        exact uninterrupted_snoc (hx ▸ h.good) hpx
    · exact h
  | «try» p answered =>
    simp only [Lease.step]
    split
    · rename_i since hp
      split
      · rename_i hfree
        -- nobody has a lease that is still good
        have none_valid : ∀ q t g, (s.procs q).lease = some (t, g) → ¬ s.now ≤ g + leaseTime := by
          intro q t g hq hg
          have hv := h.valid q t g hq hg
          have := hfree.1
          unfold Lease.held at this
          rw [hv] at this
          simp only [decide_eq_false_iff_not] at this
          exact this hg
        unfold Lease.grant
        cases answered with
        | false =>
          simp only [Bool.false_eq_true, if_false]
          refine ⟨fun q t g hq => Nat.lt_succ_of_lt (h.token q t g hq), fun t e he => ?_, h.own, fun q t g hq hg => absurd hg (none_valid q t g hq), h.traced,
            fun q t g hq hg => h.head q t g hq hg, h.good⟩
          dsimp only at he ⊢
          rw [Option.some.injEq, Prod.mk.injEq] at he
          omega
        | true =>
          simp only [if_true]
          have cases_ : ∀ q t g, ((Lease.set { s with lock := some (s.fresh, s.now + leaseTime), fresh := s.fresh + 1 } p (.holding s.fresh s.now)).procs q).lease = some (t, g) →
              (q = p ∧ t = s.fresh ∧ g = s.now) ∨ (q ≠ p ∧ (s.procs q).lease = some (t, g)) := by
            intro q t g hq
            by_cases e : q = p
            · subst e
              rw [set_self] at hq
              simp only [LPhase.lease, Option.some.injEq, Prod.mk.injEq] at hq
              exact Or.inl ⟨rfl, hq.1.symm, hq.2.symm⟩
            · rw [set_ne _ _ e] at hq; exact Or.inr ⟨e, hq⟩
          refine ⟨fun q t g hq => ?_, fun t e he => ?_, fun q r t g g' hq hr => ?_, fun q t g hq hg => ?_, fun q hq => ?_, fun q t g hq hg => ?_, h.good⟩
          · rcases cases_ q t g hq with ⟨_, e, _⟩ | ⟨_, e⟩
            · show t < s.fresh + 1; omega
            · exact Nat.lt_succ_of_lt (h.token q t g e)
          · have he : some (s.fresh, s.now + leaseTime) = some (t, e) := he
            rw [Option.some.injEq, Prod.mk.injEq] at he
            show t < s.fresh + 1; omega
          · rcases cases_ q t g hq with ⟨e1, e2, _⟩ | ⟨_, e⟩
            · rcases cases_ r t g' hr with ⟨f1, _, _⟩ | ⟨_, f⟩
              · rw [e1, f1]
              · have := h.token r t g' f; omega
            · rcases cases_ r t g' hr with ⟨_, f2, _⟩ | ⟨_, f⟩
              · have := h.token q t g e; omega
              · exact h.own q r t g g' e f
          · rcases cases_ q t g hq with ⟨_, e2, e3⟩ | ⟨_, e⟩
            · subst e2 e3; rfl
            · exact absurd hg (none_valid q t g e)
          · by_cases e : q = p
            · subst e
              have := h.traced q hq
              rw [hp] at this; cases this
            · rw [set_ne _ _ e]; exact h.traced q hq
          · by_cases e : q = p
            · subst e; rw [set_self] at hq; cases hq
            · rw [set_ne _ _ e] at hq; exact h.head q t g hq hg
      · exact h
    · exact h

theorem late_step {s : Lease} (a : LAct) (h : (s.step a).late = false) : s.late = false := by
  cases a <;> simp only [Lease.step, Lease.grant, Lease.set] at h <;> (try split at h) <;> (try split at h) <;> (try split at h) <;>
    first | exact h | (simp only [Bool.or_eq_false_iff] at h; exact h.1)

theorem late_run (acts : List LAct) : ∀ s : Lease, (s.run acts).late = false → s.late = false := by
  induction acts with
  | nil => intro s h; exact h
  | cons a as ih => intro s h; exact late_step a (ih _ h)

theorem leaseInv_run (acts : List LAct) (hn : .lose ∉ acts) : ∀ s : Lease, LeaseInv s → (s.run acts).late = false → LeaseInv (s.run acts) := by
  induction acts with
  | nil => intro s h _; exact h
  | cons a as ih =>
    intro s h hl
    exact ih (fun hm => hn (List.mem_cons_of_mem _ hm)) _ (leaseInv_step h a (fun e => hn (e ▸ List.mem_cons_self)) (late_run as _ hl)) hl

theorem leaseInv_init : LeaseInv Lease.init :=
  ⟨(fun p t g h => by cases h), (fun t e h => by cases h), (fun p q t g g' h => by cases h), (fun p t g h => by cases h), (fun p h => by cases h),
    (fun p t g h => by cases h), (fun p a b c h => by cases a <;> cases h)⟩

end Verif

namespace Verif.Props
open Verif Verif.Spec

/-- **C91 (storage is used by one process at a time, partial).** Full statement: between two operations of one process on the storage directory, no other process has one. It holds for
any number of processes, deaths, lost answers and waiting times, if Redis does not lose the lock and every process is done with the storage, and with deleting the lock, within four
hours of getting it. Missing: slower processes (`C91_slow_fails`, `C91_slow_release_fails`) and a lost key (`C91_lost_key_fails`). -/
theorem C91_one_at_a_time_partial (acts : List LAct) (hn : .lose ∉ acts) (hl : (Lease.init.run acts).late = false) : Uninterrupted (Lease.init.run acts).trace :=
  (leaseInv_run acts hn _ leaseInv_init hl).good

/-- **C91 (a lease is exclusive).** Of two processes that were given the lock within the last four hours and have not released it, one does not exist. -/
theorem C91_exclusive_partial (acts : List LAct) (hn : .lose ∉ acts) (hl : (Lease.init.run acts).late = false) (p q t t' g g' : Nat)
    (hp : (Lease.init.run acts).procs p = .inside t g) (hq : (Lease.init.run acts).procs q = .inside t' g')
    (h1 : (Lease.init.run acts).now ≤ g + 4 * 3600000) (h2 : (Lease.init.run acts).now ≤ g' + 4 * 3600000) : p = q :=
  (leaseInv_run acts hn _ leaseInv_init hl).only (by rw [hp]; rfl) (by rw [hq]; rfl) h1 h2

/-- The lock in state `s` belongs to nobody who could delete it. -/
theorem abandoned_step {s : Lease} (h : LeaseInv s) {t e : Nat} (hlock : s.lock = some (t, e)) (hno : ∀ p g, (s.procs p).lease ≠ some (t, g)) (a : LAct) (ha : a ≠ .lose)
    (hl : (s.step a).late = false) (hn : (s.step a).now ≤ e) :
    (s.step a).lock = some (t, e) ∧ ∀ p t' g, ((s.step a).procs p).lease = some (t', g) → (s.procs p).lease = some (t', g) := by
  have hset : ∀ (p : Nat) (x : LPhase), (x.lease = none ∨ x.lease = (s.procs p).lease) → ∀ q t' g, ((s.set p x).procs q).lease = some (t', g) → (s.procs q).lease = some (t', g) := by
    intro p x hx q t' g hq
    by_cases eq : q = p
    · subst eq
      rw [set_self] at hq
      rcases hx with hx | hx
      · rw [hx] at hq; cases hq
      · rw [← hx]; exact hq
    · rw [set_ne s x eq] at hq; exact hq
  have hnow : s.now ≤ e := by
    have : s.now ≤ (s.step a).now := by
      cases a <;> simp only [Lease.step, Lease.grant, Lease.set] <;> (try split) <;> (try split) <;> (try split) <;> first | exact Nat.le_refl _ | assumption
    omega
  cases a with
  | lose => exact absurd rfl ha
  | tick now => simp only [Lease.step]; split <;> exact ⟨hlock, fun p t' g hp => hp⟩
  | start p => simp only [Lease.step]; split <;> first | exact ⟨hlock, hset p _ (Or.inl rfl)⟩ | exact ⟨hlock, fun p t' g hp => hp⟩
  | giveUp p => simp only [Lease.step]; split <;> first | exact ⟨hlock, hset p _ (Or.inl rfl)⟩ | exact ⟨hlock, fun p t' g hp => hp⟩
  | die p => exact ⟨hlock, hset p _ (Or.inl rfl)⟩
  | enter p =>
    simp only [Lease.step]
    split
    · rename_i t' g hp
      split
      · exact ⟨hlock, hset p _ (Or.inr (by rw [hp]; rfl))⟩
      · exact ⟨hlock, fun p t' g hp => hp⟩
    · exact ⟨hlock, fun p t' g hp => hp⟩
  | test p =>
    simp only [Lease.step]
    split
    · rename_i t' g hp
      split
      · exact ⟨hlock, hset p _ (Or.inr (by rw [hp]; rfl))⟩
      · exact ⟨hlock, hset p _ (Or.inl rfl)⟩
    · rename_i t' g hp
      split
      · exact ⟨hlock, hset p _ (Or.inr (by rw [hp]; rfl))⟩
      · exact ⟨hlock, hset p _ (Or.inl rfl)⟩
    · exact ⟨hlock, fun p t' g hp => hp⟩
  | work p => simp only [Lease.step]; split <;> exact ⟨hlock, fun p t' g hp => hp⟩
  | del p =>
    simp only [Lease.step] at hl ⊢
    split at hl
    · rename_i t' g hp
      exfalso
      simp only [Bool.or_eq_false_iff, Lease.tooLate, decide_eq_false_iff_not, Nat.not_lt] at hl
      have hps : (s.procs p).lease = some (t', g) := by rw [hp]; rfl
      have := h.valid p t' g hps hl.2
      rw [hlock, Option.some.injEq, Prod.mk.injEq] at this
      exact hno p g (this.1 ▸ hps)
    · exact ⟨hlock, fun p t' g hp => hp⟩
  | «try» p answered =>
    simp only [Lease.step]
    split
    · split
      · rename_i hfree
        exfalso
        have := hfree.1
        unfold Lease.held at this
        rw [hlock] at this
        simp only [decide_eq_false_iff_not] at this
        exact this hnow
      · exact ⟨hlock, fun p t' g hp => hp⟩
    · exact ⟨hlock, fun p t' g hp => hp⟩

theorem now_mono (acts : List LAct) : ∀ s : Lease, s.now ≤ (s.run acts).now := by
  induction acts with
  | nil => intro s; exact Nat.le_refl _
  | cons a as ih =>
    intro s
    refine Nat.le_trans ?_ (ih (s.step a))
    cases a <;> simp only [Lease.step, Lease.grant, Lease.set] <;> (try split) <;> (try split) <;> (try split) <;> first | exact Nat.le_refl _ | assumption

/-- **C91 (a dead process blocks the others for at most, and for all of, its four hours).** If the process that got the lock is gone without releasing it, nobody is given the lock until its time
has passed. -/
theorem C91_dead_holder_blocks (pre post : List LAct) (hn : .lose ∉ pre ++ post) (hl : (Lease.init.run (pre ++ post)).late = false) (t e : Nat)
    (hlock : (Lease.init.run pre).lock = some (t, e)) (hgone : ∀ p g, (Lease.init.run pre).procs p ≠ .holding t g ∧ (Lease.init.run pre).procs p ≠ .inside t g ∧
      (Lease.init.run pre).procs p ≠ .releasing t g) (hnow : (Lease.init.run (pre ++ post)).now ≤ e) (p : Nat)
    (hp : (Lease.init.run pre).procs p = .idle ∨ ∃ w, (Lease.init.run pre).procs p = .waiting w) :
    (Lease.init.run (pre ++ post)).lock = some (t, e) ∧ ∀ t' g, (Lease.init.run (pre ++ post)).procs p ≠ .holding t' g ∧ (Lease.init.run (pre ++ post)).procs p ≠ .inside t' g := by
  have hno : ∀ p g, ((Lease.init.run pre).procs p).lease ≠ some (t, g) := by
    intro p g hx
    obtain ⟨h1, h2, h3⟩ := hgone p g
    cases hq : (Lease.init.run pre).procs p <;> rw [hq] at hx <;> simp only [LPhase.lease, Option.some.injEq, Prod.mk.injEq, reduceCtorEq] at hx
    · exact h1 (by rw [hq, hx.1, hx.2])
    · exact h2 (by rw [hq, hx.1, hx.2])
    · exact h3 (by rw [hq, hx.1, hx.2])
  have hrun : Lease.init.run (pre ++ post) = (Lease.init.run pre).run post := by simp [Lease.run]
  rw [hrun] at hl hnow ⊢
  have hi := leaseInv_run pre (fun hm => hn (List.mem_append_left _ hm)) _ leaseInv_init (late_run post _ hl)
  have hn' : .lose ∉ post := fun hm => hn (List.mem_append_right _ hm)
  generalize Lease.init.run pre = s at *
  have key : ∀ (post : List LAct) (s : Lease), LeaseInv s → .lose ∉ post → (s.run post).late = false → s.lock = some (t, e) → (∀ p g, (s.procs p).lease ≠ some (t, g)) →
      (s.run post).now ≤ e → (s.run post).lock = some (t, e) ∧ ∀ p t' g, ((s.run post).procs p).lease = some (t', g) → (s.procs p).lease = some (t', g) := by
    intro post
    induction post with
    | nil => intro s _ _ _ h1 _ _; exact ⟨h1, fun p t' g hp => hp⟩
    | cons a as ih =>
      intro s hi hn hl h1 h2 h3
      have ha : a ≠ .lose := fun e => hn (e ▸ List.mem_cons_self)
      have hla := late_run as _ hl
      obtain ⟨k1, k2⟩ := abandoned_step hi h1 h2 a ha hla (Nat.le_trans (now_mono as (s.step a)) h3)
      obtain ⟨m1, m2⟩ := ih (s.step a) (leaseInv_step hi a ha hla) (fun hm => hn (List.mem_cons_of_mem _ hm)) hl k1 (fun p g hx => h2 p g (k2 p t g hx)) h3
      exact ⟨m1, fun p t' g hp => k2 p t' g (m2 p t' g hp)⟩
  obtain ⟨k1, k2⟩ := key post s hi hn' hl hlock hno hnow
  refine ⟨k1, fun t' g => ⟨fun hx => ?_, fun hx => ?_⟩⟩ <;>
  · have := k2 p t' g (by rw [hx]; rfl)
    rcases hp with hp | ⟨w, hp⟩ <;> rw [hp] at this <;> cases this

/-- Is the lock somebody's? -/
def Owned (s : Lease) : Prop := ∀ t e, s.lock = some (t, e) → s.now ≤ e → ∃ p g, (s.procs p).lease = some (t, g)

theorem owned_step {s : Lease} (h : Owned s) (a : LAct) (h1 : ∀ p, a ≠ .die p) (h2 : ∀ p, a ≠ .try p false) : Owned (s.step a) := by
  have hset : ∀ (p : Nat) (x : LPhase), (∀ t g, (s.procs p).lease = some (t, g) → x.lease = some (t, g) ∨ s.hasLock t = false) → Owned (s.set p x) := by
    intro p x hx t e he hn
    obtain ⟨q, g, hq⟩ := h t e he hn
    by_cases eq : q = p
    · subst eq
      rcases hx t g hq with h' | h'
      · exact ⟨q, g, by rw [set_self]; exact h'⟩
      · have hh : s.hasLock t = true := hasLock_iff.2 ⟨e, he, hn⟩
        rw [hh] at h'; cases h'
    · exact ⟨q, g, by rw [set_ne s x eq]; exact hq⟩
  cases a with
  | lose => intro t e he; cases he
  | tick now =>
    simp only [Lease.step]
    split
    · rename_i hle
      intro t e he hn
      exact h t e he (by dsimp only at hn; omega)
    · exact h
  | die p => exact absurd rfl (h1 p)
  | start p =>
    simp only [Lease.step]
    split
    · rename_i hp; exact hset p _ (fun t g hx => by rw [hp] at hx; cases hx)
    · exact h
  | giveUp p =>
    simp only [Lease.step]
    split
    · rename_i hp; exact hset p _ (fun t g hx => by rw [hp] at hx; cases hx)
    · exact h
  | enter p =>
    simp only [Lease.step]
    split
    · rename_i t g hp
      split
      · exact hset p _ (fun t' g' hx => by rw [hp] at hx; exact Or.inl hx)
      · exact h
    · exact h
  | test p =>
    simp only [Lease.step]
    split
    · rename_i t g hp
      split
      · exact hset p _ (fun t' g' hx => by rw [hp] at hx; exact Or.inl hx)
      · rename_i hx'
        refine hset p _ (fun t' g' hx => ?_)
        rw [hp] at hx
        simp only [LPhase.lease, Option.some.injEq, Prod.mk.injEq] at hx
        rw [← hx.1]
        exact Or.inr (by simpa using hx')
    · rename_i t g hp
      split
      · exact hset p _ (fun t' g' hx => by rw [hp] at hx; exact Or.inl hx)
      · rename_i hx'
        refine hset p _ (fun t' g' hx => ?_)
        rw [hp] at hx
        simp only [LPhase.lease, Option.some.injEq, Prod.mk.injEq] at hx
        rw [← hx.1]
        exact Or.inr (by simpa using hx')
    · exact h
  | work p => simp only [Lease.step]; split <;> exact h
  | del p =>
    simp only [Lease.step]
    split
    · intro t e he; cases he
    · exact h
  | «try» p answered =>
    cases answered with
    | false => exact absurd rfl (h2 p)
    | true =>
      simp only [Lease.step]
      split
      · split
        · simp only [Lease.grant, if_true]
          intro t e he _
          have he : some (s.fresh, s.now + leaseTime) = some (t, e) := he
          rw [Option.some.injEq, Prod.mk.injEq] at he
          refine ⟨p, s.now, ?_⟩
          rw [set_self, ← he.1]; rfl
        · exact h
      · exact h

/-- **C91 (no waiting for nothing, partial).** If no process dies and no answer of Redis is lost, the lock is never left behind: a process that asks within its 15 minutes while no other
process is between getting and releasing the lock, gets it. Missing: deaths (`C91_dead_holder_blocks`) and lost answers (`C91_lost_answer_fails`). -/
theorem C91_obtained_partial (acts : List LAct) (h1 : ∀ p, .die p ∉ acts) (h2 : ∀ p, .try p false ∉ acts) (p w : Nat) (hp : (Lease.init.run acts).procs p = .waiting w)
    (hw : (Lease.init.run acts).now < w + 15 * 60000)
    (hfree : ∀ q t g, (Lease.init.run acts).procs q ≠ .holding t g ∧ (Lease.init.run acts).procs q ≠ .inside t g ∧ (Lease.init.run acts).procs q ≠ .releasing t g) :
    ∃ t, ((Lease.init.run acts).step (.try p true)).procs p = .holding t (Lease.init.run acts).now ∧
      ((Lease.init.run acts).step (.try p true)).hasLock t = true := by
  have key : ∀ (acts : List LAct) (s : Lease), Owned s → (∀ p, .die p ∉ acts) → (∀ p, .try p false ∉ acts) → Owned (s.run acts) := by
    intro acts
    induction acts with
    | nil => intro s h _ _; exact h
    | cons a as ih =>
      intro s h k1 k2
      exact ih _ (owned_step h a (fun p e => k1 p (e ▸ List.mem_cons_self)) (fun p e => k2 p (e ▸ List.mem_cons_self)))
        (fun p hm => k1 p (List.mem_cons_of_mem _ hm)) (fun p hm => k2 p (List.mem_cons_of_mem _ hm))
  have ho := key acts Lease.init (fun t e h => by cases h) h1 h2
  generalize Lease.init.run acts = s at *
  have hnone : ∀ q t g, (s.procs q).lease ≠ some (t, g) := by
    intro q t g hx
    obtain ⟨k1, k2, k3⟩ := hfree q t g
    cases hq : s.procs q <;> rw [hq] at hx <;> simp only [LPhase.lease, Option.some.injEq, Prod.mk.injEq, reduceCtorEq] at hx
    · exact k1 (by rw [hq, hx.1, hx.2])
    · exact k2 (by rw [hq, hx.1, hx.2])
    · exact k3 (by rw [hq, hx.1, hx.2])
  have hheld : s.held = false := by
    cases hh : s.held with
    | false => rfl
    | true =>
      exfalso
      unfold Lease.held at hh
      split at hh
      · rename_i t e he
        obtain ⟨q, g, hq⟩ := ho t e he (of_decide_eq_true hh)
        exact hnone q t g hq
      · cases hh
  refine ⟨s.fresh, ?_, ?_⟩
  · simp only [Lease.step, hp]
    rw [if_pos ⟨hheld, hw⟩]
    simp only [Lease.grant, if_true]
    rw [set_self]
  · simp only [Lease.step, hp]
    rw [if_pos ⟨hheld, hw⟩]
    rw [hasLock_iff]
    exact ⟨s.now + leaseTime, by simp [Lease.grant, Lease.set], by simp only [Lease.grant, if_true, Lease.set]; omega⟩

/-- Two commits, one after the other; a third process waits. -/
def orderly : List LAct :=
  [.start 1, .try 1 true, .enter 1, .start 2, .try 2 true, .work 1, .tick 5000, .work 1, .test 1, .try 2 true, .del 1, .tick 6000, .try 2 true, .enter 2, .work 2, .start 3, .die 2]

example : .lose ∉ orderly ∧ (Lease.init.run orderly).late = false ∧ (Lease.init.run orderly).trace = [1, 1, 2] ∧ (Lease.init.run orderly).lock = some (1, 6000 + 4 * 3600000) ∧
    (Lease.init.run orderly).procs 3 = .waiting 6000 ∧ (Lease.init.run orderly).procs 2 = .gone := by
  refine ⟨by simp [orderly], ?_⟩
  decide +kernel

example : (∀ p, LAct.die p ∉ orderly.take 12) ∧ (∀ p, LAct.try p false ∉ orderly.take 12) ∧ (Lease.init.run (orderly.take 12)).procs 2 = .waiting 0 := by
  refine ⟨fun p => ?_, fun p => ?_, by decide +kernel⟩ <;> simp [orderly]

/-- **C91 fails for a slow process**: `Commit` tests the lock once, at its start. After four hours another process gets the lock, and both use the storage. -/
theorem C91_slow_fails : ∃ acts, .lose ∉ acts ∧ ¬ Uninterrupted (Lease.init.run acts).trace := by
  refine ⟨[.start 1, .try 1 true, .enter 1, .work 1, .tick 14400001, .start 2, .try 2 true, .enter 2, .work 2, .work 1], by simp, fun h => ?_⟩
  have e : (Lease.init.run [.start 1, .try 1 true, .enter 1, .work 1, .tick 14400001, .start 2, .try 2 true, .enter 2, .work 2, .work 1]).trace = [] ++ 1 :: ([2] ++ 1 :: []) := by
    decide +kernel
  have := h 1 [] [2] [] e 2 (by simp)
  omega

/-- **C91 fails for a slow release**: process 1 does not use the storage after its time, but deletes the lock of process 2, so that process 3 joins process 2. -/
theorem C91_slow_release_fails : ∃ acts, .lose ∉ acts ∧ ¬ Uninterrupted (Lease.init.run acts).trace ∧
    (∀ t g, (Lease.init.run acts).procs 1 ≠ .inside t g) ∧ (Lease.init.run acts).trace = [1, 2, 3, 2] := by
  have e : (Lease.init.run [.start 1, .try 1 true, .enter 1, .work 1, .test 1, .tick 14400001, .start 2, .try 2 true, .enter 2, .work 2, .del 1, .start 3, .try 3 true,
    .enter 3, .work 3, .work 2]).trace = [1, 2, 3, 2] := by decide +kernel
  refine ⟨[.start 1, .try 1 true, .enter 1, .work 1, .test 1, .tick 14400001, .start 2, .try 2 true, .enter 2, .work 2, .del 1, .start 3, .try 3 true, .enter 3, .work 3,
    .work 2], by simp, fun h => ?_, fun t g hx => ?_, e⟩
  · have := h 2 [1] [3] [] e 3 (by simp)
    omega
  · have : (Lease.init.run [.start 1, .try 1 true, .enter 1, .work 1, .test 1, .tick 14400001, .start 2, .try 2 true, .enter 2, .work 2, .del 1, .start 3, .try 3 true, .enter 3,
      .work 3, .work 2]).procs 1 = .gone := by decide +kernel
    rw [this] at hx; cases hx

/-- **C91 fails if Redis loses the key** (it is restarted without its data). -/
theorem C91_lost_key_fails : ∃ acts, (Lease.init.run acts).late = false ∧ ¬ Uninterrupted (Lease.init.run acts).trace := by
  refine ⟨[.start 1, .try 1 true, .enter 1, .work 1, .lose, .start 2, .try 2 true, .enter 2, .work 2, .work 1], by decide +kernel, fun h => ?_⟩
  have e : (Lease.init.run [.start 1, .try 1 true, .enter 1, .work 1, .lose, .start 2, .try 2 true, .enter 2, .work 2, .work 1]).trace = [] ++ 1 :: ([2] ++ 1 :: []) := by
    decide +kernel
  have := h 1 [] [2] [] e 2 (by simp)
  omega

/-- **C91 fails after a lost answer**: the `SETNX` was executed, but the caller does not learn its own token. Nobody holds the lock, nobody has died, and by `C91_dead_holder_blocks`
nobody gets it for four hours, also not the caller in its 15 minutes. -/
theorem C91_lost_answer_fails : ∃ acts, .lose ∉ acts ∧ (∀ p, .die p ∉ acts) ∧ (Lease.init.run acts).late = false ∧ (Lease.init.run acts).procs 1 = .waiting 0 ∧
    (Lease.init.run acts).lock = some (0, 14400000) ∧ (Lease.init.run acts).now = 0 ∧ ∀ q, q ≠ 1 → (Lease.init.run acts).procs q = .idle := by
  have e : Lease.init.run [.start 1, .try 1 false] = { now := 0, lock := some (0, 14400000), fresh := 1, procs := (fun q => if q = 1 then .waiting 0 else .idle), trace := [], late := false } := rfl
  refine ⟨[.start 1, .try 1 false], by simp, fun p => by simp, ?_⟩
  rw [e]
  exact ⟨rfl, rfl, rfl, rfl, fun q hq => if_neg hq⟩

/-- What two commits that overlap do to a bin. The first has read the bin when the second starts. -/
def overlapA : List CAct :=
  [.insert [(exBin, exMember 10 [1])], .saveLog (exState 2000), .begin false true, .readLog (logKey ['l']), .loadedAll, .listStart, .listEnd [exBin], .jobStart exBin,
   .jobListed 0 [exMember 10 [1]], .jobRead 0]
def overlapB : List CAct := .insert [(exBin, exMember 20 [2])] :: fullCommit [exMember 10 [1], exMember 20 [2]]
def overlapC : List CAct := [.jobWrite 0, .jobRemove 0 [exMember 10 [1]], .jobFinish 0, .replaceLogs]

/-- After the beginning of the first commit, after the second, and after the rest of the first. -/
def overA : Db := Db.init.run overlapA
def overB : Db := ({ overA with phase := .idle }).run overlapB
def overC : Db := ({ overB with phase := overA.phase }).run overlapC

def isIdle : CPhase → Bool
  | .idle => true
  | _ => false

/-- **C91, what is at stake.** If two commits overlap, a certificate that the second has stored and removed from the cache is lost again when the first replaces the file. -/
theorem C91_overlap_loses_fails : isIdle overB.phase = true ∧ Stored overB exBin [2] ∧ ¬ Stored overC exBin [2] ∧ ¬ InCache overC exBin [2] ∧ Live exBin overC.now ∧
    ∃ st, overC.ctlogs = some st ∧ isCovered (newCoverageCutoffMap st) (exMember 20 [2]) = true := by
  refine ⟨by decide +kernel, ⟨[[1], [2]], by decide +kernel, by simp⟩, ?_, ?_, by unfold Live; decide +kernel, [exState 2000], by decide +kernel, by decide +kernel⟩
  · have h : readSerialsFromStorage exBin.unix (overC.files exBin) = .ok [[1]] := by decide +kernel
    rintro ⟨l, h1, h2⟩
    rw [h] at h1
    cases h1
    revert h2
    decide
  · have h : overC.sets = [] := by decide +kernel
    rintro ⟨m, h1, _⟩
    rw [h] at h1
    cases h1

/-! ### each theorem applied -/

theorem orderly_noLose : .lose ∉ orderly := by simp [orderly]

example := C91_one_at_a_time_partial orderly orderly_noLose (by decide +kernel)
example := C91_exclusive_partial (orderly.take 15) (by simp [orderly]) (by decide +kernel) 2 2 1 1 6000 6000 (by decide +kernel) (by decide +kernel) (by decide +kernel) (by decide +kernel)

/-- The process that has the lock dies; another one waits. -/
def deadHolder : List LAct := [.start 0, .try 0 true, .enter 0, .die 0, .start 1]

theorem deadHolder_gone : ∀ p g, (Lease.init.run deadHolder).procs p ≠ .holding 0 g ∧ (Lease.init.run deadHolder).procs p ≠ .inside 0 g ∧ (Lease.init.run deadHolder).procs p ≠ .releasing 0 g
  | 0, g => by
    have e : (Lease.init.run deadHolder).procs 0 = .gone := by decide +kernel
    rw [e]
    exact ⟨nofun, nofun, nofun⟩
  | 1, g => by
    have e : (Lease.init.run deadHolder).procs 1 = .waiting 0 := by decide +kernel
    rw [e]
    exact ⟨nofun, nofun, nofun⟩
  | p + 2, g => by
    have e : (Lease.init.run deadHolder).procs (p + 2) = .idle := rfl
    rw [e]
    exact ⟨nofun, nofun, nofun⟩

example := C91_dead_holder_blocks deadHolder [.tick 1000, .try 1 true, .tick 14400000, .try 1 true] (by simp [deadHolder]) (by decide +kernel) 0 14400000 (by decide +kernel) deadHolder_gone (by decide +kernel) 1
  (Or.inr ⟨0, by decide +kernel⟩)

end Verif.Props
