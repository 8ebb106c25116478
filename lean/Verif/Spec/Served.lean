import Verif.Props.Priority
/-!
Specification of what Remote Settings serves: the records of the publisher, each with the file that the publisher has attached.
-/
namespace Verif.Spec

/-- The name of a channel of the query program, as the publisher writes it (rust-query-crlite/src/main.rs:683-689, moz_kinto_publisher/main.py:38-40, 55-92). -/
def channelName : ClientChannel → Text
  | .default => "default".toList
  | .compat => "compat".toList

/-- The folder of a run from which the publisher takes the filters of the channel (moz_kinto_publisher/main.py:55-92). -/
def channelDir : ClientChannel → Text
  | .default => "clubcard-all".toList
  | .compat => "clubcard-priority".toList

/-- A record as it is served: the fields are those of the record; and, in this channel, the attachment is the file in the bucket, noted with its digest (moz_kinto_publisher/main.py:182-212, 1017-1065). Where it can be downloaded, and what
is then received, is left open. -/
structure ServedAs (sha : Bytes → Bytes) (b : List StoredObj) (chan : ClientChannel) (r : KRec) (w : RawFilterRec) : Prop where
  filename : r.attachment = some w.filename
  incremental : r.incremental = some w.incremental
  channel : w.channel = r.channel
  stored : r.channel.getD "default".toList = channelName chan → ∀ run, Carries (channelName chan) run r → ∃ bytes, objGet b (fileIn (channelDir chan) run r) = some bytes ∧ hexDecode w.hash = some (sha bytes)

/-- All records are served, in this order. -/
def ServedAll (sha : Bytes → Bytes) (b : List StoredObj) (chan : ClientChannel) : List KRec → List RawFilterRec → Prop
  | [], [] => True
  | r :: rs, w :: ws => ServedAs sha b chan r w ∧ ServedAll sha b chan rs ws
  | _, _ => False

/-- Nothing that was in the directory or is downloaded has the digest of a published filter without being it. -/
def NoForgery (env : UpdateEnv) (b : List StoredObj) (fs : Files) : Prop :=
  ∀ c, ((∃ n, assocGet fs n = some c) ∨ ∃ u, env.fetch u = some c) → ∀ p bytes, objGet b p = some bytes → env.sha c = env.sha bytes → c = bytes

end Verif.Spec
