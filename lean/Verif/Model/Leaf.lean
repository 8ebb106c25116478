import Verif.Model.Fetch
/-!
# Log entries as bytes

`ct.RawLogEntryFromLeaf` of the library certificate-transparency-go, which go/cmd/ct-fetch/rfc6962.go:654 calls on every element of a get-entries answer, and the `sunlight.LogEntry` that tiled.go works with. The formats are those of
RFC 6962 section 3.4 and 4.6 and of c2sp.org/static-ct-api. Parsing of certificates is a parameter.
-/
namespace Verif

/-- Read a number of `n` bytes, most significant first. -/
def readBE : Nat → Nat → Bytes → Option (Nat × Bytes)
  | 0, acc, b => some (acc, b)
  | _ + 1, _, [] => none
  | n + 1, acc, x :: b => readBE n (acc * 256 + x.toNat) b

/-- Read `k` bytes. -/
def readN (k : Nat) (b : Bytes) : Option (Bytes × Bytes) := if b.length < k then none else some (b.take k, b.drop k)

/-- Read a variable-length field with `n` bytes of length, at least `lo` bytes long. -/
def readOpaque (n lo : Nat) (b : Bytes) : Option (Bytes × Bytes) :=
  match readBE n 0 b with
  | none => none
  | some (k, b) => if k < lo then none else readN k b

/-- Read certificates until the bytes are used up (an `ASN.1Cert certificate_chain<0..2^24-1>`); `fuel` is at least the number of bytes. -/
def readCerts : Nat → Bytes → Option (List Bytes)
  | _, [] => some []
  | 0, _ :: _ => none
  | fuel + 1, b@(_ :: _) =>
    match readOpaque 3 1 b with
    | none => none
    | some (c, rest) =>
      match readCerts fuel rest with
      | none => none
      | some cs => some (c :: cs)

/-- A chain with its length; nothing may follow. -/
def readChain (b : Bytes) : Option (List Bytes) :=
  match readOpaque 3 0 b with
  | none => none
  | some (c, rest) => if rest = [] then readCerts c.length c else none

/-- The contents of a `MerkleTreeLeaf`: the timestamp, and the certificate or the digest of the issuer's key and the certificate without its poison. -/
inductive LeafBody where
  | x509 (cert : Bytes)
  | precert (issuerKeyHash tbs : Bytes)
deriving DecidableEq

/-- `tls.Unmarshal(entry.LeafInput, &ret.Leaf)`; trailing bytes are an error. The version is not checked, the leaf type must be 0; entry types other than 0 and 1 lead to an error later. -/
def parseLeaf (b : Bytes) : Option (Nat × LeafBody) :=
  match b with
  | _ :: t :: b =>
    if t.toNat ≠ 0 then none
    else match readBE 8 0 b with
      | none => none
      | some (ts, b) =>
        match readBE 2 0 b with
        | none => none
        | some (ty, b) =>
          if ty = 0 then
            match readOpaque 3 1 b with
            | none => none
            | some (c, b) =>
              match readOpaque 2 0 b with
              | none => none
              | some (_, rest) => if rest = [] then some (ts, .x509 c) else none
          else if ty = 1 then
            match readN 32 b with
            | none => none
            | some (k, b) =>
              match readOpaque 3 1 b with
              | none => none
              | some (c, b) =>
                match readOpaque 2 0 b with
                | none => none
                | some (_, rest) => if rest = [] then some (ts, .precert k c) else none
          else none
  | _ => none

/-- `ct.RawLogEntryFromLeaf`: for an X.509 entry the certificate is the one in the leaf and the chain is in the extra data; for a precertificate entry both the precertificate and the chain are in the extra data. -/
def rawEntryFromLeaf (pc : Bytes → Option Cert) (input extra : Bytes) : Option RawEntry :=
  match parseLeaf input with
  | none => none
  | some (ts, .x509 c) =>
    match readChain extra with
    | none => none
    | some chain => some ⟨ts, false, pc c, chain.map pc⟩
  | some (ts, .precert _ _) =>
    match readOpaque 3 1 extra with
    | none => none
    | some (p, rest) =>
      match readChain rest with
      | none => none
      | some chain => some ⟨ts, true, pc p, chain.map pc⟩

/-! ### tiled logs -/

/-- `sunlight.LogEntry`: the fields that the leaf of the Merkle tree is made of, and `precert` and `chain`, which are in the tile but not in the leaf. -/
structure SunEntry where
  timestamp : Nat
  body : LeafBody
  index : Nat
  precert : Bytes
  chain : List Bytes

/-- Big-endian bytes of a number. -/
def beBytes : Nat → Nat → Bytes
  | 0, _ => []
  | n + 1, k => UInt8.ofNat (k / 256 ^ n % 256) :: beBytes n k

/-- The contents of the body of a leaf, from the entry type on. -/
def bodyBytes : LeafBody → Bytes
  | .x509 c => beBytes 2 0 ++ (beBytes 3 c.length ++ c)
  | .precert k t => beBytes 2 1 ++ (k ++ (beBytes 3 t.length ++ t))

/-- A `MerkleTreeLeaf` with the given extensions (RFC 6962 section 3.4). -/
def leafBytes (ts : Nat) (body : LeafBody) (ext : Bytes) : Bytes := 0 :: 0 :: (beBytes 8 ts ++ (bodyBytes body ++ (beBytes 2 ext.length ++ ext)))

/-- `LogEntry.MerkleTreeLeaf` of sunlight: the only extension is the index of the leaf. This is what the tree is checked against. -/
def sunLeaf (e : SunEntry) : Bytes := leafBytes e.timestamp e.body (0 :: (beBytes 2 5 ++ beBytes 5 e.index))

/-- The entry as `TiledLogWorker.storeLogEntry` sees it (go/cmd/ct-fetch/tiled.go:182-186, 199-236): `get` is the answer to the request for a chain certificate by its fingerprint. -/
def sunEntry (pc : Bytes → Option Cert) (get : Bytes → Fetched) (time : Nat) (e : SunEntry) : TEntry :=
  match e.body with
  | .x509 c => ⟨sunLeaf e, e.timestamp, false, pc c, e.chain.map get, time⟩
  | .precert _ _ => ⟨sunLeaf e, e.timestamp, true, pc e.precert, e.chain.map get, time⟩

end Verif
