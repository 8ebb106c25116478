import Verif.Model.Listing
import Verif.Props.Commit
/-!
C95: a listing that an error has cut short is not taken for a complete one.
-/
namespace Verif

namespace Spec

/-- All pages could be read, and `l` is what they contain, in order. -/
def CompleteListing (pages : List (Option (List Text))) (l : List Text) : Prop := ∃ ps : List (List Text), pages = ps.map some ∧ l = ps.flatten

end Spec

namespace Props
open Verif.Spec

/-! ### The invariant -/

/-- What is known in each stage. -/
def StageInv (cache : Bool) (pages : List (Option (List Text))) (s : Listing) : ScanStage → Prop
  | .scanning rest buf => s.closed = false ∧ ∃ ps : List (List Text), pages = ps.map some ++ rest ∧ s.got ++ buf = ps.flatten
  | .erred => s.closed = false ∧ none ∈ pages
  | .closedThenFatal => cache = true ∧ none ∈ pages
  | .done => Spec.CompleteListing pages s.got

structure LInv (cache : Bool) (pages : List (Option (List Text))) (s : Listing) : Prop where
  stage : StageInv cache pages s s.stage
  result : ∀ l, s.result = some l → s.closed = true ∧ l = s.got

theorem linv_init (cache : Bool) (pages : List (Option (List Text))) : LInv cache pages (Listing.init pages) := by
  refine ⟨⟨rfl, [], rfl, rfl⟩, ?_⟩
  intro l h
  cases h

theorem linv_step {cache : Bool} {pages : List (Option (List Text))} {s : Listing} (h : LInv cache pages s) (a : ScanAct) : LInv cache pages (s.step cache a) := by
  unfold Listing.step
  split
  · exact h
  obtain ⟨h1, h2⟩ := h
  have hopen : s.closed = false → s.result = none := by
    intro hc
    cases hr : s.result with
    | none => rfl
    | some l =>
      have := (h2 l hr).1
      rw [hc] at this
      cases this
  cases a with
  | fetch =>
    dsimp only
    split
    · rename_i hs
      rw [hs] at h1
      obtain ⟨hc, ps, hp, hg⟩ := h1
      refine ⟨⟨ps, by simpa using hp, by simpa using hg⟩, ?_⟩
      intro l hl
      dsimp only at hl
      rw [hopen hc] at hl
      cases hl
    · rename_i p rest hs
      rw [hs] at h1
      obtain ⟨hc, ps, hp, hg⟩ := h1
      refine ⟨⟨hc, ps ++ [p], ?_, ?_⟩, h2⟩
      · rw [hp]; simp
      · rw [List.append_nil] at hg
        simp [hg]
    · rename_i rest hs
      rw [hs] at h1
      obtain ⟨hc, ps, hp, hg⟩ := h1
      refine ⟨⟨hc, ?_⟩, h2⟩
      rw [hp]; simp
    · exact ⟨h1, h2⟩
  | pass =>
    dsimp only
    split
    · rename_i rest x buf hs
      rw [hs] at h1
      obtain ⟨hc, ps, hp, hg⟩ := h1
      refine ⟨⟨hc, ps, hp, ?_⟩, ?_⟩
      · dsimp only
        rw [← hg]; simp
      · intro l hl
        dsimp only at hl
        rw [hopen hc] at hl
        cases hl
    · exact ⟨h1, h2⟩
  | close =>
    dsimp only
    split
    · rename_i hs
      rw [hs] at h1
      split
      · rename_i hca
        refine ⟨⟨hca, h1.2⟩, ?_⟩
        intro l hl
        dsimp only at hl
        rw [hopen h1.1] at hl
        cases hl
      · exact ⟨by rw [hs]; exact h1, h2⟩
    · exact ⟨h1, h2⟩
  | fatal =>
    dsimp only
    split
    · rename_i hs
      split
      · exact ⟨h1, h2⟩
      · refine ⟨?_, h2⟩
        dsimp only
        rw [hs] at h1 ⊢
        exact h1
    · rename_i hs
      refine ⟨?_, h2⟩
      dsimp only
      rw [hs] at h1 ⊢
      exact h1
    · exact ⟨h1, h2⟩
  | finish =>
    dsimp only
    split
    · rename_i hc
      refine ⟨?_, ?_⟩
      · dsimp only
        cases hs : s.stage with
        | scanning rest buf => rw [hs] at h1; exact h1
        | erred => rw [hs] at h1; exact h1
        | closedThenFatal => rw [hs] at h1; exact h1
        | done => rw [hs] at h1; exact h1
      · intro l hl
        cases hl
        exact ⟨hc.1, rfl⟩
    · exact ⟨h1, h2⟩

theorem linv_run {cache : Bool} {pages : List (Option (List Text))} : ∀ (acts : List ScanAct) {s : Listing}, LInv cache pages s → LInv cache pages (s.run cache acts)
  | [], _, h => h
  | a :: acts, _, h => linv_run acts (linv_step h a)

theorem result_cases {cache : Bool} {pages : List (Option (List Text))} {s : Listing} (h : LInv cache pages s) {l : List Text} (hr : s.result = some l) :
    Spec.CompleteListing pages l ∨ (cache = true ∧ none ∈ pages ∧ s.stage = .closedThenFatal) := by
  obtain ⟨hc, hl⟩ := h.result l hr
  have h1 := h.stage
  cases hs : s.stage with
  | scanning rest buf =>
    rw [hs] at h1
    have := h1.1
    rw [hc] at this
    cases this
  | erred =>
    rw [hs] at h1
    have := h1.1
    rw [hc] at this
    cases this
  | closedThenFatal =>
    rw [hs] at h1
    exact .inr ⟨h1.1, h1.2, rfl⟩
  | done =>
    rw [hs] at h1
    left
    rw [hl]
    exact h1

/-- **C95** for the storage directory. Whatever the schedule and the errors: if the listing of the bins in storage returns, then every directory could be read and the listing is complete. -/
theorem C95_storage (pages : List (Option (List Text))) (acts : List ScanAct) (l : List Text) (h : ((Listing.init pages).run false acts).result = some l) : Spec.CompleteListing pages l := by
  rcases result_cases (linv_run acts (linv_init false pages)) h with h | h
  · exact h
  · cases h.1

example : ((Listing.init [some [['a'], ['b']], some [], some [['c']]]).run false [.fetch, .pass, .pass, .fetch, .fetch, .pass, .fetch, .finish]).result = some [['a'], ['b'], ['c']] := by decide

/-- **C95, in part,** for the cache (what is missing: after an error the caller may go on, see `C95_cache_fails`). If no request failed, a listing that returns is complete; if one failed and the listing returns nevertheless, then
the process ends with the next step of the goroutine that lists. -/
theorem C95_cache_partial (pages : List (Option (List Text))) (acts : List ScanAct) (l : List Text) (h : ((Listing.init pages).run true acts).result = some l) :
    (none ∉ pages → Spec.CompleteListing pages l) ∧ (¬ Spec.CompleteListing pages l → ((Listing.init pages).run true (acts ++ [.fatal])).exited = true) := by
  have hi := linv_run acts (linv_init true pages)
  rcases result_cases hi h with hc | hc
  · exact ⟨fun _ => hc, fun hn => absurd hc hn⟩
  · refine ⟨fun hn => absurd hc.2.1 hn, fun _ => ?_⟩
    have : (Listing.init pages).run true (acts ++ [.fatal]) = ((Listing.init pages).run true acts).step true .fatal := by
      unfold Listing.run
      rw [List.foldl_append]
      rfl
    rw [this]
    generalize (Listing.init pages).run true acts = s at hc
    unfold Listing.step
    split
    · assumption
    · rw [hc.2.2]

/-- The hypotheses of both parts occur. -/
example : ((Listing.init [some [['a']], some [['a'], ['b']]]).run true [.fetch, .pass, .fetch, .pass, .pass, .fetch, .finish]).result = some [['a'], ['a'], ['b']] := by decide

/-- **C95 fails** for the cache: `SetToChan` and `KeysToChan` close the channel before their caller learns of the error. The reader takes the part that it has got for the whole and goes on, until `glog.Fatalf` ends the process. -/
theorem C95_cache_fails : ∃ pages acts l,
    let s := (Listing.init pages).run true acts
    s.result = some l ∧ ¬ Spec.CompleteListing pages l ∧ s.exited = false := by
  refine ⟨[some [['a']], none], [.fetch, .pass, .fetch, .close, .finish], [['a']], by decide, ?_, by decide⟩
  rintro ⟨ps, hp, _⟩
  have : none ∈ ps.map some := by
    rw [← hp]
    exact List.mem_cons_of_mem _ (List.mem_singleton.2 rfl)
  simp at this

/-- The commit up to the listing of the bins, with one covered certificate in the cache. -/
def cutActs : List CAct :=
  [.insert [(exBin, exMember 10 [1])], .saveLog (exState 2000), .begin false true, .readLog (logKey ['l']), .loadedAll, .listStart]

/-- The first `SCAN` fails, so that the list of bins is empty; the commit has nothing to move and replaces the coverage file. -/
def cutDb : Db := ((Db.init.run cutActs).listCut []).run [.replaceLogs]

/-- **C95 fails**, and what follows from it: the coverage file is replaced although the certificate that it covers is not in storage. -/
theorem C95_coverage_fails : ∃ m st, cutDb.ctlogs = some st ∧ (exBin, m) ∈ cutDb.pubSeen ∧ isCovered (newCoverageCutoffMap st) m = true ∧ Live exBin cutDb.now ∧ ¬ Stored cutDb exBin (asSerial m) := by
  refine ⟨exMember 10 [1], [exState 2000], by decide +kernel, by decide +kernel, by decide +kernel, by unfold Live; decide +kernel, ?_⟩
  have h : readSerialsFromStorage exBin.unix (cutDb.files exBin) = .ok [] := by decide +kernel
  rintro ⟨l, h1, h2⟩
  rw [h] at h1
  cases h1
  cases h2

end Props
end Verif
