import Verif.Model.Keys
/-!
The removal of expired bins from the storage directory at the end of a commit.
-/
namespace Verif

/-- What the file system does to `removeExpiredSerialsFromStorage`. Reading a directory may fail, and `os.Remove` may fail, each for its own reasons. -/
structure SweepEnv where
  /-- `os.ReadDir(db.serialsDir())` fails -/
  noRoot : Bool
  /-- the first `os.ReadDir` of the issuer's directory fails -/
  noFirst : Text → Bool
  /-- the second `os.ReadDir` of the issuer's directory fails -/
  noSecond : Text → Bool
  /-- `os.Remove` of the file in the directory fails; the error is ignored -/
  stuck : Text → Text → Bool
  /-- `os.Remove` of the directory fails; the error is ignored -/
  dirStuck : Text → Bool

/-- One successful removal. -/
inductive SweepOp where
  | file (dir name : Text)
  | dir (name : Text)
deriving DecidableEq

/-- The test for one file (go/storage/certdatabase.go:229-239): exactly three parts, the second a date that has passed. -/
def overdue (now : Int) (name : Text) : Bool :=
  match splitColons name [] with
  | [_, d, _] =>
    match newExpDate d with
    | some e => e.isExpiredAt now
    | none => false
  | _ => false

/-- The files of an issuer's directory that are removed (go/storage/certdatabase.go:227-242). -/
def removedFiles (env : SweepEnv) (now : Int) (d : DirEntry) : List Text :=
  d.files.filter (fun f => overdue now f && !(env.stuck d.name f))

/-- The test of lines 219-221: is the entry a directory of an issuer? -/
def isIssuerDir (d : DirEntry) : Bool := d.isDir && hasPrefix "issuer::".toList d.name

/-- The loop of `removeExpiredSerialsFromStorage` over the issuers' directories (go/storage/certdatabase.go:216-253): the removals in order, and
whether `nil` is returned. The second listing of a directory (lines 243-251) shows the files that were not removed; `os.Remove` of the directory is tried
if there are none. Simplification: nothing else changes the directory meanwhile (the commit lock, C37). -/
def sweepDirs (env : SweepEnv) (now : Int) : List DirEntry → List SweepOp × Bool
  | [] => ([], true)
  | d :: rest =>
    if isIssuerDir d then
      if env.noFirst d.name then ([], false)
      else
        let gone := removedFiles env now d
        let ops := gone.map (SweepOp.file d.name)
        if env.noSecond d.name then (ops, false)
        else
          let r := sweepDirs env now rest
          if d.files.length = gone.length && !(env.dirStuck d.name) then (ops ++ SweepOp.dir d.name :: r.1, r.2)
          else (ops ++ r.1, r.2)
    else sweepDirs env now rest

/-- `removeExpiredSerialsFromStorage` (go/storage/certdatabase.go:211-255). -/
def sweep (env : SweepEnv) (now : Int) (dirs : List DirEntry) : List SweepOp × Bool :=
  if env.noRoot then ([], false) else sweepDirs env now dirs

/-- The storage directory after one removal. -/
def SweepOp.apply (dirs : List DirEntry) : SweepOp → List DirEntry
  | .file dn f => dirs.map (fun d => if d.name = dn then { d with files := d.files.filter (fun g => decide (g ≠ f)) } else d)
  | .dir dn => dirs.filter (fun d => decide (d.name ≠ dn))

/-- The storage directory after some removals. -/
def sweepRun (dirs : List DirEntry) (ops : List SweepOp) : List DirEntry := ops.foldl SweepOp.apply dirs

end Verif
