import Verif.Model.Commit
/-! Independent specification for commits. -/
namespace Verif.Spec

/-- The serial is in the storage file of its bin, as a reader of the file sees it. -/
def Stored (db : Db) (b : Bin) (s : Serial) : Prop := ∃ l, readSerialsFromStorage b.unix (db.files b) = .ok l ∧ s ∈ l

/-- A member with this serial is in the cache. -/
def InCache (db : Db) (b : Bin) (s : Serial) : Prop := ∃ m, (b, m) ∈ db.sets ∧ asSerial m = s

/-- The hour of the bin has not begun. -/
def Live (b : Bin) (now : Int) : Prop := now < b.unix * 1000

/-- The bin's date is a 64-bit number. -/
def InRange (b : Bin) : Prop := -2 ^ 63 ≤ b.unix ∧ b.unix < 2 ^ 63

/-- Serials that fit on a line that `bufio.Scanner` can read (see `C04_long_serial_fails`). -/
def Short (m : Bytes) : Prop := (asSerial m).length < 32768

/-- The histories considered: Redis does not lose data, a scan returns no bin twice, and serials are shorter than 32 KiB. -/
def Fine : CAct → Prop
  | .insert ps => ∀ p ∈ ps, Short p.2
  | .listEnd bs => bs.Nodup ∧ ∀ b ∈ bs, InRange b
  | .wipe => False
  | _ => True

end Verif.Spec
