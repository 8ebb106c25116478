import Verif.Model.PublisherMain
import Verif.Model.Epoch
/-!
# Which clients get a record

`publish_crlite_record` (main.py:731-782) gives every record the slug of its channel and a filter expression, by which Remote Settings clients decide whether the record is for them.
-/
namespace Verif

/-- `channel.supported_version`, the same for all channels (main.py:61, 73, 85). -/
def supportedVersion : Nat := 133

/-- `attributes["filter_expression"]` (main.py:754-756). -/
def filterExpression (slug : Text) (version : Nat) : Text :=
  "env.version|versionCompare('".toList ++ (natText version ++ (".!') >= 0 && '".toList ++ (slug ++ "' == 'security.pki.crlite_channel'|preferenceValue('none')".toList)))

/-- The expression of a record: channel and expression are set together (main.py:744, 754). A record without a channel is older than both. -/
def expressionOf (r : KRec) : Option Text := r.channel.map (fun c => filterExpression c supportedVersion)

end Verif
