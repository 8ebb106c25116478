import Verif.Model.Signing
import Verif.Model.PublisherMain
/-!
How the scripts start the programs: `containers/scripts/crlite-generate.sh`, `crlite-publish.sh`, `crlite-signoff.sh` and `workflow/0-set_credentials.inc`, with the words that the shell makes of variables and what the Python programs make
of their arguments. What the programs do with them is in `Script`, `Workflow`, `PublisherMain` and `Signing`.
-/
namespace Verif

/-- The variables of the environment that the scripts use; one that is not set is empty, which none of the scripts tells apart. -/
structure ShellEnv where
  doNotUpload : Text
  kintoNoop : Text
  args : Text
  credentialsData : Text
  googleCredentials : Text
  processing : Text
  persistent : Text
  bucket : Text
  statsdHost : Text
  workdir : Text

/-- The characters that separate words (the default of `IFS`). -/
def isIfs (c : Char) : Bool := decide (c = ' ') || decide (c = '\t') || decide (c = '\n')

/-- Word splitting, with the beginning of a word. -/
def wordsFrom (cur : Text) : Text → List Text
  | [] => if cur = [] then [] else [cur]
  | c :: rest =>
    if isIfs c then (if cur = [] then wordsFrom [] rest else cur :: wordsFrom [] rest)
    else wordsFrom (cur ++ [c]) rest

/-- The words that an expansion outside of quotes becomes. Patterns (`*`, `?`, `[`) and `~` are left out. -/
def words (t : Text) : List Text := wordsFrom [] t

/-- `${v:-d}`. -/
def orDefault (v d : Text) : Text := if v = [] then d else v

/-! ### arguments of the Python programs -/

/-- What `argparse` takes for an option and not for a value: it begins with `-`, is longer, and is not a negative number (of which only whole ones are modelled). -/
def looksOption : Text → Bool
  | '-' :: c :: rest => !((c :: rest).all (fun x => decide ('0' ≤ x) && decide (x ≤ '9')))
  | _ => false

/-- `parse_args`: the positional arguments and the options in order; `none` if it ends the program (status 2). `flags` are the options without a value. Abbreviations of options, `--option=value` and `--` are left out (an error here); no
script writes them. -/
def argparse (flags valued : List Text) : List Text → Option (List Text × List (Text × Text))
  | [] => some ([], [])
  | a :: rest =>
    if looksOption a then
      if flags.contains a then (argparse flags valued rest).map (fun r => (r.1, (a, []) :: r.2))
      else if valued.contains a then
        match rest with
        | v :: rest' => if looksOption v then none else (argparse flags valued rest').map (fun r => (r.1, (a, v) :: r.2))
        | [] => none
      else none
    else (argparse flags valued rest).map (fun r => (a :: r.1, r.2))

/-- The value of an option: the last one given. -/
def lastValue (name : Text) (opts : List (Text × Text)) : Option Text := ((opts.filter (fun o => decide (o.1 = name))).getLast?).map Prod.snd

/-- What `2-generate_mlbf` is asked for (workflow/2-generate_mlbf:14-36). -/
structure MlbfCall where
  identifier : Text
  bucket : Text
  statsd : Option Text
  reasons : Option Text
  deltaReasons : Option Text
  filterType : Option Text
  nodiff : Option Text
deriving DecidableEq

/-- The arguments of `2-generate_mlbf`. -/
def mlbfParse (args : List Text) : Option MlbfCall :=
  match argparse [] ["--nodiff".toList, "--filter-bucket".toList, "--statsd-host".toList, "--reason-set".toList, "--delta-reason-set".toList, "--filter-type".toList] args with
  | some ([i], o) =>
    match lastValue "--filter-bucket".toList o with
    | some b =>
      some ⟨i, b, lastValue "--statsd-host".toList o, lastValue "--reason-set".toList o, lastValue "--delta-reason-set".toList o, lastValue "--filter-type".toList o, lastValue "--nodiff".toList o⟩
    | none => none
  | _ => none

/-- `1-upload_data_to_storage` (13-23) and `3-upload_mlbf_to_storage` (13-23): folder, bucket and whether `--noop` is given. -/
def uploadParse (args : List Text) : Option (Text × Text × Bool) :=
  match argparse ["--noop".toList] ["--filter-bucket".toList] args with
  | some ([i], o) =>
    match lastValue "--filter-bucket".toList o with
    | some b => some (i, b, (lastValue "--noop".toList o).isSome)
    | none => none
  | _ => none

/-- `0-allocate_identifier` (11-17): path and bucket. -/
def allocateParse (args : List Text) : Option (Option Text × Text) :=
  match argparse [] ["--path".toList, "--filter-bucket".toList] args with
  | some ([], o) =>
    match lastValue "--filter-bucket".toList o with
    | some b => some (lastValue "--path".toList o, b)
    | none => none
  | _ => none

/-- What the publisher is asked for (moz_kinto_publisher/main.py:1253-1271). -/
structure PublisherCall where
  noop : Bool
  downloadPath : Option Text
  bucket : Text
  enrolled : Option Text
deriving DecidableEq

/-- The arguments of the publisher. -/
def publisherParse (args : List Text) : Option PublisherCall :=
  match argparse ["--noop".toList, "--verbose".toList, "-v".toList] ["--download-path".toList, "--filter-bucket".toList, "--enrolled-json".toList] args with
  | some ([], o) =>
    some ⟨(lastValue "--noop".toList o).isSome, lastValue "--download-path".toList o, (lastValue "--filter-bucket".toList o).getD "crlite_filters".toList, lastValue "--enrolled-json".toList o⟩
  | _ => none

/-! ### the filter builder as `2-generate_mlbf` calls it -/

/-- `os.path.join` of two parts, the second of which does not begin with `/`. -/
def pathJoin (a b : Text) : Text := if a.getLast? = some '/' then a ++ b else a ++ '/' :: b

/-- The arguments of rust-create-cascade without `-vv`, `--clobber` and `--prev-revset`. -/
structure BuilderCall where
  known : Text
  revoked : Text
  ctLogs : Text
  statsd : Option Text
  outdir : Text
  reasons : Text
  deltaReasons : Text
  filterType : Text
deriving DecidableEq

/-- An option that was not given, in an f-string. -/
def orNone (o : Option Text) : Text := o.getD "None".toList

/-- `if args.x` is false for an empty text too. -/
def given (o : Option Text) (d : Text) : Text :=
  match o with
  | none => d
  | some t => if t = [] then d else t

/-- workflow/2-generate_mlbf:46-84. -/
def builderCall (c : MlbfCall) : BuilderCall :=
  let reasons := given c.reasons "all".toList
  let deltaReasons := given c.deltaReasons reasons
  let filterType := given c.filterType "cascade".toList
  let out :=
    if filterType = "cascade".toList ∧ reasons = "all".toList then "mlbf".toList
    else if filterType = "cascade".toList then "mlbf-".toList ++ orNone c.reasons
    else orNone c.filterType ++ '-' :: orNone c.reasons
  ⟨pathJoin c.identifier "known".toList, pathJoin c.identifier "revoked".toList, pathJoin c.identifier "ct-logs.json".toList, (if given c.statsd [] = [] then none else c.statsd),
    pathJoin c.identifier out, reasons, deltaReasons, filterType⟩

/-! ### crlite-generate.sh -/

inductive Tool
  | allocate | makeLog | aggregateCrls | aggregateKnown | look | archive | uploadData | generateMlbf | uploadMlbf | df
deriving DecidableEq

/-- A command with the words that it gets as arguments. -/
structure Cmd where
  tool : Tool
  args : List Text
deriving DecidableEq

/-- The bucket as the scripts write it. -/
def bucketWords (env : ShellEnv) : List Text := words (orDefault env.bucket "crlite_filters_staging".toList)

/-- crlite-generate.sh:7-9. -/
def allocateCmd (env : ShellEnv) : Cmd :=
  ⟨.allocate, "--path".toList :: words (orDefault env.processing "/ct/processing/".toList) ++ "--filter-bucket".toList :: bucketWords env⟩

/-- crlite-generate.sh:54-58 and 60-64. -/
def mlbfCmd (env : ShellEnv) (id reasons : Text) : Cmd :=
  ⟨.generateMlbf, words id ++ "--filter-bucket".toList :: bucketWords env ++ "--statsd-host".toList :: words env.statsdHost ++
    ["--reason-set".toList, reasons, "--filter-type".toList, "clubcard".toList]⟩

/-- crlite-generate.sh:50-51 and 68-69. -/
def uploadCmd (env : ShellEnv) (id : Text) (tool : Tool) : Cmd := ⟨tool, words id ++ "--filter-bucket".toList :: bucketWords env⟩

/-- The directory of the CRLs (crlite-generate.sh:19). -/
def crlsPath (env : ShellEnv) : Text := orDefault env.persistent "/ct".toList ++ "/crls".toList

/-- crlite-generate.sh:20-26. -/
def crlsCmd (env : ShellEnv) (id : Text) : Cmd :=
  ⟨.aggregateCrls, "-crlpath".toList :: words (crlsPath env) ++ "-revokedpath".toList :: words (id ++ "/revoked".toList) ++ "-enrolledpath".toList :: words (id ++ "/enrolled.json".toList) ++
     "-auditpath".toList :: words (id ++ "/crl-audit.json".toList) ++ "-ccadb".toList :: words (orDefault env.persistent "/ct".toList ++ "/ccadb-intermediates.csv".toList) ++
     ["-stderrthreshold=INFO".toList, "-alsologtostderr".toList, "-log_dir".toList] ++ words (id ++ "/log".toList)⟩

/-- crlite-generate.sh:28-32. -/
def knownCmd (env : ShellEnv) (id : Text) : Cmd :=
  ⟨.aggregateKnown, "-knownpath".toList :: words (id ++ "/known".toList) ++ "-enrolledpath".toList :: words (id ++ "/enrolled.json".toList) ++ "-ctlogspath".toList :: words (id ++ "/ct-logs.json".toList) ++
     ["-stderrthreshold=INFO".toList, "-alsologtostderr".toList, "-log_dir".toList] ++ words (env.workdir ++ "/log".toList)⟩

/-- The commands after the identifier is known (crlite-generate.sh:15-76); `look` stands for those that change no content (34-43), `df` for the last two. The arguments of commands that are not part of the project are left out. -/
def generateCmds (env : ShellEnv) (id : Text) : List Cmd :=
  [⟨.makeLog, []⟩, crlsCmd env id, knownCmd env id, ⟨.look, []⟩] ++
  (if env.doNotUpload = [] then [⟨.archive, []⟩, uploadCmd env id .uploadData] else []) ++
  [mlbfCmd env id "all".toList, mlbfCmd env id "priority".toList] ++
  (if env.doNotUpload = [] then [uploadCmd env id .uploadMlbf] else []) ++
  [⟨.df, []⟩]

/-- Whether a Python program accepts its arguments. The flags of the Go programs are left to the outcome of the command. -/
def accepts (c : Cmd) : Bool :=
  match c.tool with
  | .allocate => (allocateParse c.args).isSome
  | .uploadData => (uploadParse c.args).isSome
  | .uploadMlbf => (uploadParse c.args).isSome
  | .generateMlbf => (mlbfParse c.args).isSome
  | _ => true

/-- `bash -e`: the commands that are started, and whether the status is 0. -/
def runCmds (ok : Cmd → Bool) : List Cmd → List Cmd × Bool
  | [] => ([], true)
  | c :: rest =>
    if ok c then
      let r := runCmds ok rest
      (c :: r.1, r.2)
    else ([c], false)

/-- workflow/0-set_credentials.inc: whether the script goes on, and the file `/tmp/credentials.json` afterwards. `decode` is `base64 --decode`: what it writes and whether its status is 0. `strict`: the script that includes it runs with `-e`
(crlite-generate.sh, crlite-publish.sh) or not (crlite-signoff.sh); the first line of the included file has no effect. -/
def setCredentials (strict : Bool) (decode : Text → Bytes × Bool) (env : ShellEnv) (file : Bytes) : Bool × Bytes :=
  if env.credentialsData ≠ [] then (!strict || (decode env.credentialsData).2, file ++ (decode env.credentialsData).1)
  else (decide (env.googleCredentials ≠ []), file)

/-- crlite-generate.sh. `id` is what `0-allocate_identifier` prints, `ok` says which commands succeed if they accept their arguments. -/
def generateScript (decode : Text → Bytes × Bool) (env : ShellEnv) (file : Bytes) (id : Text) (ok : Cmd → Bool) : List Cmd × Bool :=
  if (setCredentials true decode env file).1 then runCmds (fun c => accepts c && ok c) (allocateCmd env :: generateCmds env id) else ([], false)

/-! ### crlite-publish.sh and crlite-signoff.sh -/

/-- The arguments of the publisher (crlite-publish.sh:7-16). `ARGS` is set by the script only if there is to be no change; otherwise it is what the environment has. -/
def publishArgs (env : ShellEnv) : List Text :=
  "--filter-bucket".toList :: bucketWords env ++ ["--download-path".toList, "/tmp/crlite".toList] ++
    words (if env.doNotUpload ≠ [] ∨ env.kintoNoop ≠ [] then "--noop".toList else env.args)

/-- crlite-publish.sh: what the publisher does, `none` if it does not begin. `there`: `/tmp/crlite` exists (or cannot be made), so that `mkdir` fails. -/
def publishScript (decode : Text → Bytes × Bool) (env : ShellEnv) (file : Bytes) (there : Bool) : Option PublisherCall :=
  if (setCredentials true decode env file).1 then (if there then none else publisherParse (publishArgs env)) else none

/-- crlite-signoff.sh with crlite-signoff-tool.py:29, 74-90: the collections that the tool tries to sign. `bool` of the variable `KINTO_NOOP` is true unless it is empty. -/
def signoffScript (decode : Text → Bytes × Bool) (env : ShellEnv) (file : Bytes) (size : Option Nat) (maxSize : Nat) : List SignTarget :=
  if (setCredentials false decode env file).1 then (if env.kintoNoop = [] then signoffTargets env.bucket size maxSize else []) else []

end Verif
