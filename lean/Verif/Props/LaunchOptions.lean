import Verif.Props.Launch

/-! # C115: options that the scripts do not write themselves -/

namespace Verif.Props
open Verif.Spec

/-- What `ARGS` of the environment brings in when it asks for more messages: the publisher does the same as without it (moz_kinto_publisher/main.py:1271). -/
theorem C115_verbose_partial (decode : Text → Bytes × Bool) (env : ShellEnv) (file : Bytes) (hb : env.bucket = [] ∨ PlainWord env.bucket) (hd : env.doNotUpload = []) (hk : env.kintoNoop = [])
    (ha : env.args = "--verbose".toList ∨ env.args = "-v".toList) (hs : (setCredentials true decode env file).1 = true) :
    publishScript decode env file false =
      some ⟨false, some "/tmp/crlite".toList, if env.bucket = [] then "crlite_filters_staging".toList else env.bucket, none⟩ := by
  obtain ⟨b, hb1, hb2, hb3⟩ := bucketWords_plain env hb
  rw [← hb2]
  unfold publishScript
  rw [if_pos hs, if_neg (by decide)]
  unfold publisherParse publishArgs
  rw [hb1, if_neg (fun h => h.elim (fun e => e hd) (fun e => e hk))]
  have h1 : words "--verbose".toList = ["--verbose".toList] := by decide +kernel
  have h2 : words "-v".toList = ["-v".toList] := by decide +kernel
  rcases ha with ha | ha
  · rw [ha, h1]
    simp only [List.cons_append, List.nil_append]
    rw [argparse_val _ (by decide +kernel) (by decide +kernel) (by decide +kernel) hb3]
    rfl
  · rw [ha, h2]
    simp only [List.cons_append, List.nil_append]
    rw [argparse_val _ (by decide +kernel) (by decide +kernel) (by decide +kernel) hb3]
    rfl

example : publisherParse ["--filter-bucket".toList, "b".toList, "--verbose".toList] = some ⟨false, none, "b".toList, none⟩ := by decide +kernel

/-- The option against a difference takes a value, and the program gets it (workflow/2-generate_mlbf:16). -/
theorem C115_nodiff (id b v : Text) (hi : IsValue id) (hb : IsValue b) (hv : IsValue v) :
    mlbfParse [id, "--filter-bucket".toList, b, "--nodiff".toList, v] = some ⟨id, b, none, none, none, none, some v⟩ := by
  unfold mlbfParse
  rw [argparse_pos _ ((looksOption_iff id).2 hi), argparse_val _ (by decide +kernel) (by decide +kernel) (by decide +kernel) ((looksOption_iff b).2 hb),
    argparse_val _ (by decide +kernel) (by decide +kernel) (by decide +kernel) ((looksOption_iff v).2 hv)]
  rfl

example : mlbfParse ["20260101-0".toList, "--filter-bucket".toList, "b".toList, "--nodiff".toList, "1".toList] =
    some ⟨"20260101-0".toList, "b".toList, none, none, none, none, some "1".toList⟩ := by decide +kernel

end Verif.Props
