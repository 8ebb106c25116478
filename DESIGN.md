# Verification of mozilla/crlite — design

Source: `/repo` (read as text only; never built or run). The properties are in
`properties.jsonl` (C01 …). The model and proofs are Lean 4.33.0 under
`lean/Verif/`, built by `lake build` in `lean/`.

## 1. How the model is built

* Pure, total, computable Lean functions over `List`, `Nat`, `Int`, `Option`, `UInt8`
  and small structures. One Lean definition per source function (or loop body), with
  the source file and lines in its comment, and every simplification named there.
* 64-bit arithmetic is `Nat` unless wrap-around is part of the property. Where the code
  multiplies or subtracts `uint64`s, either `UInt64` is used (C02) or a
  separate lemma shows the subtraction cannot underflow (C20).
* Outside calls are parameters: SHA-256 is an arbitrary function, a CT server is an
  arbitrary list of responses, Redis/disk failures are arbitrary booleans in an
  explicit schedule. Assumptions about them appear as theorem hypotheses.
* Goroutines and processes become a `step` function or relation over explicit atomic
  actions; a theorem "for every schedule" is an induction over the list of actions.
  A crash is "stop after any prefix of the actions, and lose volatile state".
* Errors are values (`Except`/`Option`), nil pointers are `none`.

File plan: `Verif/Model/*.lean` (definitions mirroring the code),
`Verif/Spec/*.lean` (independent specifications: RFC 6962 tree hash and proofs,
calendar, sets, chains), `Verif/Lemmas/*.lean` (helper lemmas),
`Verif/Props/*.lean` (one file per area with the property theorems and, beside each, an
`example` that instantiates its hypotheses).

Where the code does not satisfy a property as stated, the file contains
(a) a theorem `…_fails` exhibiting a concrete state/history of the model that
violates it and (b) a theorem with suffix `_partial` for what does hold. The full statement stays
in `properties.jsonl`, and the disagreement is listed in section 4.

## 2. Properties: what is modelled, how it is proved

| id | modelled | proof |
|----|----------|-------|
| C01 | `NewMember`, `AsSerial`, the field split in `IsCovered`, over byte lists; timestamp `UInt64` little endian | round trip + injectivity, by computation on the fixed 40-byte header |
| C02 | `CoverageCutoff` with `UInt64` wrap-around, `NewCoverageCutoffMap`, `IsCovered` | decision equivalence with an integer specification when each log is listed once and MMD·1000 does not overflow; exact description of what is computed in general; a wrap-around witness shows the bound is needed |
| C03 | `Dedup` (sort, then compaction comparing neighbours) | sorted/`Nodup`/same members for any list |
| C04 | `WriteSerialList`, line scanner, `ReadSerialsFromStorage`, hex | round trip on raw text |
| C05 | the above plus Rust `KnownSerialIterator` (`lines()`, `@` lines, `u64::from_str_radix`) | round trip over any list of blocks, expiry < 2^64 and ≥ 0 |
| C06 | `StoreRevokedCertificateList`, `RevokedSerialAndReasonIterator`, reason decoding | round trip |
| C07 | `Reason`, `SerialAndReason`; ASN.1 decoding of one ENUMERATED is a parameter returning an `Int` or error (C100 has the decoder) | decision logic |
| C08 | hex encode/decode, JSON string quoting of hex | round trip, injectivity |
| C09 | key construction, split on `::`, accessor key concatenation | round trip, injectivity given ids free of `::` (proved for real ids: hex/base64url alphabets) |
| C10 | civil-from-days / days-from-civil calendar for `2006-01-02` and `2006-01-02-15` formats | round trip for years 0–9999 by arithmetic; names are equal iff same hour; order by monotonicity of the calendar |
| C11 | `NewExpDateFromTime`, `NewExpDate∘ID`, `IsExpiredAt` in milliseconds (NotAfter whole seconds) | arithmetic |
| C12 | cache `EXPIREAT` time | refuted by witness; `_partial`: within one hour, and exact on whole hours |
| C13 | `crlite_key`, issuer file name = base64url of 32 bytes | injectivity |
| C14 | `shortUrlToLogKey`, store/load as a finite map | map laws over any history of saves |
| C15 | `Consume`, `CheckClaim` for any hash | loop invariant: stack = tree hashes of the binary decomposition; refinement to RFC 6962 MTH |
| C16 | same | explicit collision extraction by recursion on MTH |
| C17 | `consistencyProofToSubtrees`, `Midpoint` | equality with RFC 6962 PROOF/SUBPROOF ranges; termination is by construction (fuel shown sufficient) |
| C18 | the filter and insertion sorts of `Run` | tiling predicate proved from C17 |
| C19 | composition of C15, C17 with true node hashes | refinement |
| C20 | the task choice of `NewLogWorker` and index computation of `Run` | arithmetic; a log that shrank is an exception |
| C21 | `Run`, `updateState`, `downloadCTRangeToChannel` with an arbitrary server | trace invariant by induction over events |
| C22 | `insertCTWorker`, `tryUpdate` with an arbitrary failure schedule | state machine invariant |
| C23 | any number of workers reading saved states at any time, FIFO queue, one consumer | system invariant over all interleavings |
| C24 | log with merge times; `updateState` max timestamps | arithmetic on monotone merge order |
| C25 | tiled and RFC 6962 workers from an empty database | refuted by witness run; `_partial` for RFC 6962 logs first seen with more than 3 entries |
| C26 | timestamps in `downloadCTRangeToChannel`, `updateState` | maximum proved over all histories; minimum refuted for the idle path |
| C27 | both `storeLogEntry` functions, parsing as parameters | decision logic |
| C28 | `Enroll`/`Unenroll` | counting invariant over histories |
| C29 | job iteration against honest log | variant; refuted at MinEntry 1..3 |
| C30 | health handler | decision logic |
| C31–C35 | `Commit` as a list of atomic effects on (storage, cache, epoch file, log-state file); crash = prefix | invariants by induction over effects and histories |
| C36 | batch loops | concatenation of batches is the list |
| C37 | lock with expiry, processes performing get/del separately | mutual exclusion without expiry; race witness with expiry |
| C38 | `Restore`, `EnsureCacheIsConsistent` | post-state |
| C39 | `Migrate` on the key-value map | post-state, idempotence |
| C40 | `GetIssuerAndDatesFromChannel` | membership equivalence |
| C41 | composition of C21–C24, C31–C35 | end-to-end theorem |
| C42 | mock cache as sorted slice with binary search | refuted by witness; `_partial` for insert-only histories |
| C43 | `WriteSerialList` through a buffered writer with a failing flush | refuted by witness; `_partial` when the flush succeeds |
| C44, C45 | `work`, `knownWorker.run` | contents and counting |
| C46, C47 | `aggregateCRLWorker`, `processCRL`, IDP check | decision logic and contents |
| C48–C50 | downloader | case analysis; induction on attempts |
| C51–C53 | `Merge`, `decodeCrls`, `InsertIssuer`, save/load | set equalities |
| C54 | configuration | decision logic |
| C55 | file names | injectivity modulo digest |
| C56–C62 | filter input, counts, delta, stash | list/set equalities, round trip, induction over runs |
| C63–C65 | client query and update | decision logic, permutation invariance |
| C66–C69 | publisher record checks | graph argument: unique full, height = length−1 iff chain |
| C70, C71 | intermediates and CT-log publication | set equalities |
| C72, C73 | run identifiers, upload order | arithmetic; prefixes of the upload list |
| C74 | `EndToEnd`: a sequence of runs, each with its full filter, delta and coverage, queried by the client | composition of C56, C58, C59 and C63 by induction over runs; exact filters are a hypothesis |
| C75 | `Leaf`: the byte format of RFC 6962 leaves and of static-ct tiles | parsing is inverted; what the leaf hash fixes and what it leaves open |
| C76, C77 | `Download`: headers of a resumed request, comparison of CRL dates | induction over attempts; witness |
| C78, C79 | `Issuers`: the CCADB report on disk, its rows | decision logic; set equality for any iteration order; the certificate of an issuer is in `IssuersTool` |
| C80 | `Client`: records of unknown channels | refuted for every collection with such a record; proved otherwise |
| C81 | `Operations`: the bucket over time, the publisher in between | invariants of bucket and collection by induction over reachable states |
| C82 | `Operations`, `Filter`, `EndToEnd` | C81 composed with C56, C58, C63 along the chain; partial as C74 |
| C83 | `Whole`, `Known`, `Crls`, `Filter`, `EndToEnd`: from log entries and CRLs to the client | C41, C40, C44, C46 and C74 composed; the conditions that the parts need are the fields of `Spec.KnownRun`, `Spec.CrlRun` and `Spec.Logged`, each with the counterexample that shows it is needed |
| C84 | `Signing`: a collection with status and `last_modified`, any number of clients; publisher and sign-off job | invariants of all event sequences: a seen version that is current has the current status and no edit since; then C67, C70 give what the publisher left |
| C85 | `Signing.signoffTargets`: crlite-signoff.sh | case analysis |
| C86 | `Issuers.loadFromDisk`, `Crls.crlUnits`, `CrlAgg`: from the rows of the report to the revoked files; C83 for the client's answer | composition of C79, C52, C46, C83; the fields of a row are described by how they are written, not by how they are decoded |
| C87 | `Audit.fetchOne`, `fetchAudits` (crlFetchWorkerProcessOne, DownloadAndVerifyFileSync with the auditor); the audit of `CrlAgg` | case analysis for one download; invariant over all interleavings of the workers (that of C47) |
| C88 | `Clean.sweep` (removeExpiredSerialsFromStorage): the removals in order; a crash is a prefix of them | each removal is justified; the final directory is computed from the set of removals; C40 gives what the aggregator lists |
| C89 | `Epoch.readEpoch`, `epochTail` (getStorageEpoch, end of Commit) with the buffered writer of C43 | induction over the digits; case analysis over what fails |
| C90 | `Inters.uniqueId`, `parseLocal`, `parseRemote`, `setPem` (class Intermediate), with base85 and the Python byte literal spelled out | base85 is injective on blocks; a byte literal never ends in a dash followed by another byte literal; case analysis of the two readers; C70 for the whole collection |
| C91 | `Lease`: clock, lock with expiry, and processes that wait, enter, use the storage, release or die | one invariant: a lease that is still good is the one in Redis; the trace of storage operations is a sequence of blocks; the loss by two overlapping commits is run in the model of C31 |
| C92 | no new model: generations and publications (C82), with for each generation a history of ct-fetch and commits, a run of aggregate-known, and a run of aggregate-crls on a report | C82 with the known set from C83 and the revoked set from C86; the example runs the log of C83 and the bucket of C82 together |
| C93 | no new model: `Whole` (ct-fetch, Redis, commits) and `Agg` | two invariants that need no assumption on the logs or the schedule: all that is in cache, files and running goroutines was inserted; all that is inserted is an item of an entry in some answer. The specification looks only at the answers in the list of steps |
| C94 | `Exit`: `main`, receiver of new logs, downloaders, database thread, both wait groups, the bounded channel, signals; steps in any order | an invariant ties the counters to the goroutines that have called `Add` and not `Done`; freedom from deadlock by a measure that some step other than a signal lowers |
| C95 | `Listing`: the listing goroutine, its channel, the deferred close, `glog.Fatal` and the caller; `Commit` for the consequence | invariant over the stages of the goroutine; the two variants differ only in what precedes `Fatal` |
| C96 | `Build.buildMain`: checks, clobbering, directories, then counting, filter, revset and delta, stash, delta filter with panics as status 101 | `buildFiles` is `createRun` up to counting (`countPairs_of_status`: what can be built can be counted), then C56; refusals by cases |
| C97 | `Operations` with `GenRun.makePrio` | `BInv.files` says which revocation set `makePrio` was given; induction along the chain of runs as in C82, with C58 for the delta and C13 for the keys |
| C98 | `Worker` (job with its ending) over `Fetch`, `Merkle` | `C98_events` ties it to `runWorker`; the verifier's invariant excludes an empty stack; C18's tiling gives adjacent updates; induction over the answers of a truthful log |
| C99 | `Script`: one execution, each program with its exit status and the files it leaves (over `Crls`, `Known`, `Issuers`, `Build`, `Operations`) | the conditions of C92 and C97 on runs are derived from the script: the input is read back from the directories (C44, C46), the builder by C96, the bucket by C81; the example runs everything from a log and a report to a client's answer |
| C100 | `Der`: the parts of Go's `encoding/asn1` that the structures of go/types.go use, as functions on octet lists; `Spec.Der`: DER and the RFC 5280 syntax as relations between values and octets, which do not mention the decoder | the accepted headers are exactly those of the specification (`parseTagLen_iff`, `base128_iff`, `parseLength_iff`); fields, sequences and lists by composition; minimal two's complement is unique by a range argument (`twos_range`); soundness by following the suffixes |
| C101 | `Tiled`: a job with its requests for issuers, the cache that outlives it, and its end, over arbitrary entries and answers; `Spec.Tiled`: fingerprints, records, consecutive and complete iteration | an inductive case list of storing one entry (`Stored`); properties kept by every request are kept by jobs and histories (`Keeps`); the loop is compared with `Fetch.readEntries` entry by entry; induction over histories with cuts |
| C102 | `PublisherMain`: the calls of `main` over the models of C66–C71 and C84; `Spec.PublisherMain`: sound bucket, channel up to date, same logs and intermediates | induction over the calls with an invariant for the filters; for the repetition: after a publication the newest run is the last by name and by key, so the next task is empty; each execution is translated into a history of C84 |
| C103 | `Json`: Go's encoder to the character (escapes, numbers, RFC 3339 times), field matching of Go, serde and Python from the parsed value on, and the members they ignore (`Props.JsonMembers`); `Spec.Json`: the grammars of RFC 8259 and RFC 3339 as inductive relations | the encoder's text is derived in the grammar by induction over the lists; unambiguity by induction over the grammar with what may follow each piece; instants through the calendar of C02 |
| C104 | `Bincode`: serialization and deserialization of byte strings, sequences, sets and maps; `Spec.Bincode`: the format as relations | one combinator `Reads` (accepts the format from the front, and nothing else) for words, byte strings, counted sequences and entries; cuts follow from it; the delta by C58 |
| C105 | `Pem`: Go's `pem.Decode` and `pem.Encode` line by line, the crate `pem` 1, `asciiPemToBinaryDer`, and which octets of a file `ParseCRL`, the distribution point check and the client use; `Spec.Pem`: base64 and RFC 7468 as relations | the first occurrence of a marker is found where no earlier one can be; the body of base64 has neither hyphens nor colons; DER elements from C100 |
| C106 | `Ingest`, `Whole`, `Commit` as before; `Spec.Growth`: the order of log states, the state that counts for a log, and what it means that nothing is left of a job | the states of one job grow; per log, the states on their way to the database form a growing chain from the saved one; the published states are below those a commit has read, and these below the saved ones |
| C107 | `Query`: the whole program from its arguments to the exit status and the files of the database; `Spec.Query`: revoked certificates, files holding one certificate, hosts with ports, hosts files, the certificate a host is judged by | induction over files, hosts and addresses; C63, C64, C65, C104 and C105 for the database and the armour; C74 for the runs |
| C108 | `X509`: elements, certificates, extensions and timestamps as x509-parser reads them; `Spec.X509`: RFC 5280 4.1 and RFC 6962 3.2, 3.3 as relations on top of `Spec.Der` | completeness of each reader against its relation; soundness of each reader against a looser relation, which says what any accepted octets are; object identifiers and base-128 numbers have one encoding; C100 for the serial number; C107 for the exit status, C83 from the logs and CRLs on |
| C109 | `Caches`: the commands RedisCache sends, on a map of keys with expiry times, and the maps of MockRemoteCache; one step per call. `Spec.Caches`: what the cache holds as a predicate, what is after each call, which answer is right | one relation per cache between its maps and what it holds, kept by every call (`redisCall_rel`, `mockCall_rel`); right answers to the same call are alike (`answers_alike`) |
| C110 | `Csv`: Go's `encoding/csv` as a machine over characters, the column map, a row as the loop sees it, `LoadFromDisk` on the text. `Spec.Csv`: fields, records and tables of RFC 4180 as relations; a writer; the value in a column | the state after a text is described by relations (`read_step`), so reading and the grammar agree in both directions; composed with C105 (armour) and C86 (disclosed CRLs) |
| C111 | `Memory`: the commit machine of C31 with a memory limit: each `SADD` of a pipeline, `SET` and `INCR` may be refused, and Redis may evict keys as its policy allows; the test of `INFO memory`. `Spec.Memory`: Redis' reply | with no eviction each step is a step of C31's machine or none, so C31 and C32 apply; a full state is a fixed point by cases over the steps; a text without line ends lies in one line |
| C112 | `Config`: the parsers of `strconv` and ini.v1 on characters, all numeric settings, the flag. `Spec.Config`: numbers as written to a base, settings that work | the loop of the parser is related to written numbers by induction from the left; the consequences are runs of C44's and C46's workers with none of them, by induction over the steps, and the job choice of C20 |
| C113 | `Follow`: the map of enrolled logs with whole records, the goroutines with their copies, answers of Remote Settings, ends of jobs as C98 has them. `Spec.Follow`: the last word of a list about a log, the record that enrolled it | the map is the fold of the records said; induction from the end of the list; the goroutines by an invariant over the steps |
| C114 | `Waiting`: the loop over requests with their durations, the sleeps, the clock as any function of time, the local file. `Spec.Waiting`: the times of the requests, an even clock | the end is the first request after which the loop does not go on; strong induction; C73 for a complete run |
| C115 | `Launch`: the variables, word splitting, `argparse` for options with and without value, the commands of the script under `-e`. `Spec.Launch`: white space, single words, configured environments | induction over texts and argument lists: an option without its value is refused wherever it stands, a flag at the end always counts |
| C116 | `Duration`: `time.ParseDuration` with its checks for overflow, fractions as a parameter, `PrepareTelemetry`, the timeouts of go-redis. `Spec.Duration`: the value of digits, the table of units, sequences of parts | what one turn of the loop takes is one part, in both directions; induction over the parts |
| C117 | `Url`: `url.ParseQuery`, `Values.Encode`, `URL.String` and `url.Parse` around the query, the parts before it as a parameter. `Spec.Url`: application/x-www-form-urlencoded as a relation, the values of a name | each octet's escape is read back (256 cases); the written query is in the form; two sorted lists of names with the same values are equal; strings of parsed URLs determine their parts |
| C118 | `RunTime`: `isoformat` and `strftime` for seconds, `fromisoformat` with `replace`, names of records, allocation with two readings of the clock. `Spec.RunTime`: RFC 3339 from `Spec.Json`, the bucket from `Spec.PublisherMain` | dates as numbers of eight digits increase from day to day by the calendar; fixed numbers of digits compare as numbers; the order of names by cases on the first field that differs; C72 gives the names, C102 the second execution |
| C119 | `Target`: the text of the expression and the supported version. `Spec.Target`: symbols, expressions and values of the part of JEXL that is needed, Mozilla's order of versions | the text is taken apart into its symbols for all names of channels; versions are compared with `133.!` by the major number, and in the second part `!` is before every letter and before no text; C102 gives the chain, C82 the answers |
| C120 | `Client` (update and loading), `Operations`, `Publisher`. `Spec.Served`: how a record is served, and what may not be forged | the records received correspond one to one to those published; by C81 each carries a complete run, so its file name has no slash, is that of a filter, and tells run and kind; hence C64 applies, and each listed file is the object in the bucket; C82 and C97 give the answers |
| C121 | `Query` (the whole program), `Operations`, `Publisher`. `Spec.issuersAt`, `Spec.EnrolledAs`, `Spec.Mirrors` | C120 gives the filters; by C81 the runs of the chain are in the order of their names and each attachment leads back to its run, so the latest of the names of the files (C65) is the last run of the chain; C63 gives the issuer that verifies the certificate, C82 and C97 the answer, C107 the exit status |
| C122 | `Script` (with `Issuers`, `Whole`, `Known`, `Crls`), `Operations`, `Publisher`, `Query`. `Spec.HeldBy`, `Spec.ReadsLists` | inserting keeps every certificate of an issuer, so the saved list is the list of first usable rows that chain; C99 puts this list in the folder of the run; C121 gives filters and issuers, C99 the answer (C97 on the channel for the priority reasons, with `C99_generates_priority`), C107 the exit status |
| C123 | `Stats`. `Spec.InOrder`, `Spec.Says`, `Spec.Active` | invariant over the events: the kept periods are the last five with events, in order, and each says what was measured in it so far; later events are not in a period that is over |
| C124 | `IssuersTool` (with `Issuers`). `Spec.ReadsReports`, `Spec.InReport`, `Spec.ReportUsed`, `Spec.HasReport` | the map built by insertion has no empty entry and only certificates of the entry's issuer; the certificates in it are those of the report that count; reading back by C53 |

## 3. Trusted base

* Lean's kernel; axioms used by the theorems: at most `propext`, `Classical.choice`,
  `Quot.sound`.
* The hand translation from Go/Rust/Python to Lean. No tool ties the model to the code; every
  definition names the lines it translates.
* Go, Rust, Python runtimes, their standard libraries (sort, hex, base64, JSON, time),
  Redis and the file system (atomic rename) behave as documented.
* Not modelled: X.509/ASN.1/TLS parsing other than that of C100, signatures, SHA-256 itself, the
  `rust-cascade`/`clubcard` filter encodings (assumed exact on their universe, checked by the
  program itself), HTTP transport, Kinto server, telemetry, logging, command line parsing.

### Modules and the assumptions built into them

| model file | models | built-in assumptions |
|---|---|---|
| `Serial`, `SerialFile`, `Text`, `Time`, `Keys` | C01–C14 | Go's `time` and `encoding/hex` as documented |
| `Merkle` | C15–C19 | the hash is any function; collision resistance is never assumed, collisions are exhibited |
| `Fetch` | C20, C21, C24–C27, C29 | parsing of certificates is a parameter; one request is one atomic answer |
| `Ingest` | C22, C23, C28, C30 | the channel is FIFO; the consumer is one goroutine |
| `Commit` | C31–C35 | one commit at a time; each file is written completely or not at all (C43 is about short writes); lock tokens are distinct |
| `Storage` | C36–C40, C42, C43 | Redis commands are atomic |
| `Whole` | C41 | `Ingest` and `Commit` run against the same cache |
| `Known` | C44, C45, C83 | any number of workers, any schedule; a read either fails or returns the whole file; storage does not change while aggregate-known holds the commit lock; the filter library covers at most what the coverage file says |
| `Crls` | C46, C47 | as `Known`; parsing and signature check of a CRL are parameters |
| `Download` | C48–C50, C55, C76, C77 | a server answer is a status, headers and a body that may be cut anywhere |
| `Issuers` | C51–C54, C78, C79 | chain building is a parameter |
| `Filter` | C56–C62 | the filter library is a parameter; `check` is the program's own |
| `Client` | C63–C65, C80 | signature checks are a parameter |
| `Operations` | C81, C82 | one generation at a time; a publication changes the collection in one step, but each of its requests to the bucket may have been answered at its own earlier moment; clock does not go back; `./prev_revset.bin` does not exist; the contents of files are decoded by parameters |
| `Publisher` | C66–C69 | the Kinto collection is a list of records; each call may fail |
| `Collections` | C70, C71 | as `Publisher` |
| `Workflow` | C72, C73 | the bucket is a list of writes; directory listings are complete |
| `EndToEnd` | C74 | coverage and enrolment of `clubcard-crlite` are modelled from its callers and documentation |
| `Leaf` | C75 | `ct.RawLogEntryFromLeaf` and the sunlight client are modelled from their documentation and RFC 6962 |
| `Signing` | C84, C85 | Kinto signer: an edit of a record sets work-in-progress and a new `last_modified`, patches with an old one are refused, `to-sign` publishes at once. A publication is one step: while it edits, the status is work-in-progress and every patch of the sign-off job is refused |
| `Audit` | C87 | the issuer of a CRL is in the program; entries are a list of issuer, URL and kind (their order, times and error texts are left out) |
| `Clean` | C88 | nothing else changes the storage directory during the sweep; no two entries of a directory have the same name |
| `Epoch` | C89 | epochs are below 2^64; a rename is atomic |
| `Inters` | C90 | SHA-256 has 32 bytes and X.509 parsing is a function of the PEM text; the attachment server answers the same during one run; a file of 64 hash characters is not compared with the attachment (as in the program) |
| `Lease` | C91 | tokens are different (16 random bytes); process numbers are not reused; one clock for all (Redis and the processes) |
| `Exit` | C94 | a goroutine's steps are its `Add`, sends and return; retries of the database thread are part of treating a message; the runtime's own check for misuse of a wait group is left out |
| `Listing` | C95 | an unbuffered channel; `glog.Fatal` is one step that ends the process; conversion of the elements is left out |
| `Build` | C96 | libraries are parameters; files are written whole or not at all; `reason_codes.csv` and statistics left out; a removal that fails removes nothing |
| `Operations` | C97 | as for C82; the priority files are those of `createRun` (C96 for calls that are refused) |
| `Worker` | C98 | answers are decoded by the CT library; a panic inside a dependency is not modelled; time-outs of HTTP calls are `failed` |
| `Script` | C99 | `GoodLib`: filters, revocation sets (see C104) and PEM are read back as written, and the filter library covers at most what `ct-logs.json` says; the shell stops at the first status other than 0; the folder is new and only these programs write to it |
| `Der` | C100 | `encoding/asn1` of Go is not in /repo; its rules for headers, integers, object identifiers, booleans and optional fields are modelled as its source has them; which contents are times is a parameter |
| `Tiled` | C101 | the iterator of the `sunlight` client (not in /repo) yields consecutive entries that it has checked against the tree, and stops before an incomplete tile of 256 entries unless it begins in it (the comment at tiled.go:338-340); its errors are a flag; certificates are parsed by a parameter |
| `PublisherMain` | C102 | the publisher is alone during its execution; signing in and settings are left out; timestamps in names sort as times (`NamesFollow`, proved in C118), and the bucket holds complete runs with increasing times (`SoundBucket`, proved in C118 for the times) |
| `Json` | C103 | the JSON parsers and `Time.UnmarshalJSON` follow RFC 8259 and RFC 3339 (`GoodReaders`); zones with a fraction of a minute are left out |
| `Bincode` | C104 | `bincode` 1.3 as documented; the files' bytes do not change on disk except by truncation |
| `Pem` | C105 | `encoding/pem`, `encoding/base64` and the crate `pem` as in their sources; in the crate, tags and line ends outside ASCII and base64 without padding are refused by the model; that `CheckCRLSignature` ignores the parameters of the outer algorithm is assumed and not modelled |
| `Query` | C107 | TLS, HTTP, name resolution, file access and the certificate parser are parameters; status codes of HTTP answers are not looked at, as in the program; a hash map is written in the order in which it was filled (C104 shows that the order does not matter) |
| `X509` | C108 | x509-parser, der-parser and asn1-rs are not in the repository; the model follows their documented behaviour; contents of algorithms, names, validity, keys, unique identifiers and signatures are parameters (`X509World`) |
| `Caches` | C109 | each call is one step; Redis is up and its commands do what their documentation says; `SetToChan` without repetitions (C95); `Migrate` is C39 |
| `Csv` | C110 | `encoding/csv` reads as its source says; the file is text (invalid UTF-8 is kept by the library, not modelled); `ParseCertificate` and `Verify` are parameters |
| `Memory` | C111 | Redis refuses `SADD`, `SET` and `INCR` while more memory is in use than allowed, and nothing else; memory in use is a function of sets and log states (lock and epoch are counted as constant) |
| `Config` | C112 | the behaviour of `strconv` and `gopkg.in/ini.v1` v1.67.0, which are not in the repository, as documented; what ini.v1 does to a value before the program sees it; settings that are plain texts are left out |
| `Follow` | C113 | sending on `NewChan` and starting the goroutine is one step; the description in a record, the scheme of the address of Remote Settings and its JSON are left out; cancelled jobs are a flag |
| `Waiting` | C114 | a request sees the bucket as it is when it begins; the time of the program between requests is left out; a failed request for `completed` is left out |
| `Launch` | C115 | `-e` and word splitting as documented for bash; no patterns or `~` in the variables; abbreviated options, `--option=value` and `--` are left out; whether a Go program accepts its flags is part of its outcome |
| `Duration` | C116 | `time.ParseDuration` as in Go 1.24; the nanoseconds of a fraction (floating point) are a parameter and at most one unit; go-redis v6 takes 0 as 3 seconds and less as no timeout |
| `Url` | C117 | net/url as in Go 1.24; what parsing and writing does to the part before the query and to the fragment is a parameter that gives the same again (`GoodFix`) |
| `RunTime` | C118 | Python's `datetime` for whole seconds of the years 1 to 9999; of the forms that `fromisoformat` accepts, those with seconds, no fraction, and an offset of hours and minutes or none |
| `Target` | C119 | JEXL, the transforms `versionCompare` and `preferenceValue` and the order of versions as documented by Mozilla; the browser's code is not in the repository. A record with a channel has the expression that this version of the program writes |
| `Spec.Served` | C120 | Remote Settings (not in the repository) serves the records as the publisher left them, each with the SHA-256 of the attached file; no collision among the contents seen and the published filters |
| `Props.Answers` | C121 | as C120; lengths below 2^64; the bucket serves for the newest run some list of issuers |
| `Props.World`, `Props.WorldPriority` | C122 | as C99 and C120; the query program reads the lists of issuers in the bucket as they were written |
| `Stats` | C123 | the in-memory sink of go-metrics is modelled from its documented behaviour; measured numbers are naturals; the lock is held for each event |
| `IssuersTool` | C124 | as `Issuers`; reading the CSV is a parameter |

## 4. Disagreements between code and properties

Each line is a theorem `…_fails` (a concrete history of the model, or a statement for all histories)
showing that the property as stated does not hold. They were found by trying to prove the
property. The lines marked (guard) only show that a hypothesis of a proved theorem is needed.

### Loss of certificates or wrong coverage

| theorem | what happens | code |
|---|---|---|
| `C25_tiled_fails` | entry 0 of a tiled log is never downloaded, yet every recorded range begins at 0 | go/cmd/ct-fetch, tiled worker |
| `C25_one_entry_fails` | an RFC 6962 log first seen with exactly one entry is recorded as having entry 0, which is never downloaded (`C25_one_entry_never_repaired`) | ct-fetch `NewLogWorker` |
| `C29_stuck_fails`, `C29_stuck_reached_fails` | a range that begins at entry 1, 2 or 3 stops all progress of the worker | ct-fetch `Run` |
| `C26_minimum_fails` | an idle run stores the entry number `MinEntry` (0) as the smallest timestamp | ct-fetch `sleep` path |
| `C24_boundary_fails` | an entry exactly at the cutoff counts as covered but need not have been downloaded | go/storage `CoverageCutoff` |
| `C24_lower_edge_fails` | during a backfill the published interval may contain entries that were not downloaded | go/storage coverage, ct-fetch |
| `C31_duplicate_bin_fails` | Redis `SCAN` may return a key twice; then two goroutines of one commit race and lose a certificate; the next commit publishes coverage for it (`C32_duplicate_bin_fails`) | go/storage `Commit` |
| `C32_cache_loss_fails` | after a loss of Redis data the restored states claim entries that were only in the cache | `EnsureCacheIsConsistent` |
| `C34_first_reset_fails`, `C34_storage_loss_fails` | a data loss after the first commit is not noticed; coverage is then published for certificates that are nowhere | epoch protocol |
| `C43_last_flush_fails`, `C44_last_flush_fails`, `C46_last_flush_fails` | the error of the deferred `Flush` is ignored; a short file counts as written | serial writers |
| `C04_long_serial_fails` | a serial of 32 KiB or more is written but the file can not be read again | go/storage serial files |
| `C04_cut_fails` | a serial file cut within a line is read without an error, as another serial | go/storage serial files |
| `C12_cache_expiry_fails` | a cached entry may vanish up to one hour before the certificate expires | cache `EXPIREAT` |
| `C14_redis_error_fails` | a Redis error makes `GetLogState` return a brand-new state | go/storage |
| `C74_known_elsewhere_fails` | a certificate that is first known from a log outside its SCTs goes into a delta that does not cover it; later deltas answer Good until the next full filter | rust-create-cascade, client |
| `C75_precert_fails`, `C75_tiled_precert_fails`, `C75_issuer_fails` | precertificate and issuer are taken from data that the leaf hash does not cover | ct-fetch `storeLogEntry` |
| `C02_wraparound_fails` (guard) | a merge delay near 2^64/1000 s wraps | `CoverageCutoff` |

### Revocations

| theorem | what happens | code |
|---|---|---|
| `C46_enrolled_anyway_fails` | an issuer whose CRL could not be used is enrolled all the same, without revocations | aggregate-crls |
| `C46_interrupted_fails` | after a signal the program saves the issuers and exits with success | aggregate-crls |
| `C44_no_workers_fails`, `C46_no_workers_fails` | zero workers: success without files | aggregate-known, aggregate-crls |
| `C47_used_anyway_fails` | a CRL whose distribution point does not match is reported in the audit, and used | aggregate-crls |
| `C49_stale_file_fails` | a resumed download continues a file of another version | go/downloader |
| `C76_never_resumes_fails` | a resumed request carries `Content-Range` where HTTP has `Range`; it is never a resumption | go/downloader |
| `C77_rollback_fails` | an older CRL replaces a newer one; `verifyCRL` is only called by tests | aggregate-crls |
| `C55_too_long_fails` | file names of CRLs are not bounded | `makeFilenameFromUrl` |
| `C52_comma_fails`, `C52_partition_order_fails` | a URL with a comma is cut; the partition flag depends on map order | go/rootprogram |
| `C53_encode_error_fails` | a JSON write error is swallowed | go/rootprogram |
| `C78_truncated_fails` | a report cut short by a broken download is used by the next run | go/rootprogram |
| `C79_duplicate_row_fails` | only the first row of a certificate counts | go/rootprogram |
| `C57_histogram_fails` | the reason histogram counts a serial once per expiry bin | rust-create-cascade |
| `C57_repeats_fails` | the universe announced for a clubcard counts a serial once per expiry bin | rust-create-cascade/src/clubcard_helper.rs:29-41 |
| `C60_reason_change_fails` | priority deltas are taken against the all-reasons set; a change of reason into the priority set is in no delta | rust-create-cascade |
| `C62_long_serial_fails` | a serial of 256 bytes breaks the stash | rust-create-cascade |
| `C86_other_scheme_fails` | a disclosed CRL at a URL that is not http(s) is left out with a warning, and the revoked file is written from the others | go/rootprogram `decodeCrls` |
| `C87_unreported_fails` | a download that can not be moved to its place, or a directory that can not be made, leaves the issuer out without an audit entry | aggregate-crls |
| `C05_negative_expiry_fails` (guard) | an expiry before 1970 is not readable | rust-create-cascade |

### Client, publisher, operation

| theorem | what happens | code |
|---|---|---|
| `C64_remove_fails`, `C64_duplicate_fails`, `C64_escape_fails` | ignored removal errors, two records with one name, names with slashes | rust-query-crlite |
| `C65_stray_fails` | files that are no filters decide which run is newest | rust-query-crlite |
| `C80_unknown_channel_fails` | one record of an unknown channel stops every update | rust-query-crlite |
| `C69_min_fails` | the oldest run is found by text order, so with ten runs a day the age limit is missed | moz_kinto_publisher |
| `C71_new_log_enrolled_fails` | new CT logs are created as enrolled; the comment says a reviewer enrols them | moz_kinto_publisher |
| `C84_other_channel_fails` | review is requested for the whole collection after each channel; a channel that was cleared when its publication died is signed as empty | moz_kinto_publisher |
| `C84_not_submitted_fails` | the publisher dies after the last upload: later runs find nothing to do, and the records are never submitted for review | moz_kinto_publisher |
| `C84_foreign_edit_fails` | the collection is compared with the local list and then whatever is there is submitted | moz_kinto_publisher |
| `C85_missing_fails` | the filter file that is measured is written by no program here; a missing file counts as size 0 and the filters are signed | crlite-signoff.sh |
| `C72_clock_back_fails`, `C72_million_fails`, `C72_not_uploaded_fails`, `C72_prefix_fails` | identifiers of runs that are handed out twice or miscounted | workflow scripts |
| `C73_priority_missing_fails` | a run is marked complete without a priority filter | workflow scripts |
| `C28_two_workers_fails` | unenrolling and enrolling a log during a job gives it two workers | ct-fetch |
| `C20_shrunk_log_fails` | a log that now signs a smaller tree is asked for an empty range of entries, away from what was fetched | ct-fetch `Run` |
| `C30_silent_worker_fails`, `C30_huge_delay_fails` | one live worker hides any number of dead ones; a delay of 2^33 s overflows | ct-fetch health handler |
| `C34_counted_again_fails`, `C89_counted_again_fails` | the Redis client sends a command again whose answer was lost (`MaxRetries: 10`), and `INCR` is not idempotent: the epoch of the cache ends ahead by two or more although `Commit` has completed and returns `nil`; every further commit is refused until ct-fetch is started again | go/storage NewRedisCache, NextEpoch, Commit |
| `C89_flush_ignored_fails`, `C89_lost_answer_fails`, `C89_reset_unnoticed_fails` | the result of flushing the epoch file is ignored: after a full disk it is empty, `Commit` returns `nil` with epochs that do not match (the comment says only a failed rename does that), and an empty cache then passes the consistency check although there is stored coverage | go/storage Commit |
| `C90_empty_hash_fails`, `C90_unmarked_fails` | an empty `derHash` counts as absent, so the record is accepted with any attachment and never corrected; an attachment without PEM markers raises an exception that `publish_intermediates` does not catch, so the broken record is not removed and nothing is published | moz_kinto_publisher `Intermediate` |
| `C91_slow_fails`, `C91_slow_release_fails`, `C91_lost_key_fails`, `C91_lost_answer_fails`, `C91_overlap_loses_fails` | the lock expires after four hours but is tested only at the start of `Commit`: a slower commit or aggregate-known overlaps with the next one, and a bin is replaced by an older version, after its entries were removed from the cache; a lost answer to `SETNX` blocks everybody for four hours | go/storage `AcquireCommitLock`, aggregate-known, commit |
| `C93_unverified_fails` | ct-fetch sends each certificate to the database before the Merkle check of its subtree; when the check fails, the state is not saved, but the certificate stays. A log can in this way put a certificate that is not in its tree into the known set, by giving it a timestamp that is already covered | ct-fetch `downloadCTRangeToChannel` |
| `C94_early_fails`, `C94_closed_fails`, `C94_unsaved_fails` | `SyncLog` and `insertCTWorker` call `Add` in their own goroutine; `main` may pass `Wait` before that. ct-fetch (in its default mode, which ends after one pass) can exit with status 0 and nothing done, panic on a send, or leave messages in the channel. Calling `Add` before `go` would repair it | ct-fetch `SyncLog`, `insertCTWorker`, `Wait` |
| `C37_expiry_fails`, `C37_release_race_fails` | the commit lock expires during a commit; test and deletion are two commands | go/storage |
| `C42_remove_fails` | the in-memory cache for tests loses its order after a removal | go/storage mock |
| `C11_unparsed_fails`, `C18_small_tree_fails`, `C39_misfiled_fails` (guard) | hypotheses of the proved theorems are needed | |
| `C95_cache_fails`, `C95_coverage_fails` | `SetToChan` and `KeysToChan` close the channel (deferred) before their caller can call `glog.Fatalf`; meanwhile the reader takes the part for the whole. If the first SCAN for bins fails, the commit has nothing to move and may replace the coverage file before the process ends | go/storage `List`, `GetIssuerAndDatesFromCache` |
| `C96_exit_zero_fails`, `C96_clobber_fails`, `C96_retry_fails` | The builder refuses by returning from `main`, with status 0, so `check=True` in 2-generate_mlbf does not see it; with `--clobber` the old output is gone by then; without, the `delta` directory it made lets the next call be refused too | rust-create-cascade/src/main.rs:740-785, workflow/2-generate_mlbf:104 |
| `C96_cascade_fails` | An empty cascade (nothing revoked, or nothing new) gives no file and status 0 | rust-create-cascade/src/cascade_helper.rs:142-145 |
| `C96_outdir_fails` | The output directory is named after the option, not its default: without `--reason-set` the clubcard goes to `clubcard-None`, which is never uploaded | workflow/2-generate_mlbf:64-73 |
| `C97_reason_change_fails` | A certificate revoked first for another reason and then for key compromise is in the revocation set (all reasons) against which the priority delta is made, so no filter of the `compat` channel has it until the next full filter: clients answer Good | workflow/2-generate_mlbf:86-97, rust-create-cascade/src/main.rs:585-615 |
| `C98_stale_head_fails`, `C98_stale_head_between_fails` | A tree head older than the start of the range kept (one stale front end is enough, while the part below is still missing) ends the worker with an error, and the log is not read again until the process restarts | go/cmd/ct-fetch/rfc6962.go:333-376, go/cmd/ct-fetch/ct-fetch.go:147-151 |
| `C98_short_start_fails` | A range that begins at entry 1, 2 or 3 ends the worker at the first job below it | go/cmd/ct-fetch/rfc6962.go:352-376 |
| `C98_spin_fails` | A log that answers get-entries with no entries and no error keeps its worker asking for the same entry without pause or bound | go/cmd/ct-fetch/rfc6962.go:629-686 |
| `C98_zero_batch_fails` | With `batchSize` 0 in the configuration file the first backfill divides by zero | go/cmd/ct-fetch/rfc6962.go:338, go/config/config.go:176 |
| `C99_interrupted_fails` | A signal during the aggregation of CRLs: aggregate-crls ends with status 0 and has saved the list of issuers, so the script goes on, and a complete run is published in which listed certificates are answered Good | go/cmd/aggregate-crls/aggregate-crls.go:546-582, containers/scripts/crlite-generate.sh:20-32 |
| `C99_priority_missing_fails` | A builder that cannot make its output directory ends with status 0; if this happens to the second call, the run is marked complete without priority filters | rust-create-cascade/src/main.rs:776-786, workflow/2-generate_mlbf:104 |
| `C99_list_cut_fails` | An error while the list of issuers is encoded is only logged (`err` is shadowed), so aggregate-crls ends with status 0 and leaves a list that is no JSON; the next program of the script fails on it | go/rootprogram/issuers.go:336-346 |
| `C100_padded_serial_fails` | A certificate whose serial number is encoded with a superfluous leading zero octet is not matched by the CRL entry for the same number: serials are compared as octets | go/types.go:404-409, 426-433 |
| `C100_foreign_entry_fails` | An entry with a critical `certificateIssuer` extension (an indirect CRL) is recorded as a revocation by the issuer of the CRL; critical entry extensions are never looked at | go/types.go:363-396, go/cmd/aggregate-crls/aggregate-crls.go:286-302 |
| `C101_fingerprint_fails` | What the log answers to `issuer/<fingerprint>` is not checked against the fingerprint and is cached until the process ends: entries are recorded under the wrong issuer, also after the log has been repaired | go/cmd/ct-fetch/tiled.go:127-152 |
| `C101_unparsable_fails` | One entry whose certificate cannot be parsed ends the job with an error; every restart ends at the same entry, and the log is never covered beyond it | go/cmd/ct-fetch/tiled.go:187-189, 296-299 |
| `C101_missing_issuer_fails` | One issuer that the log does not answer keeps the log from being covered beyond the entry that names it, until the certificate of the entry has expired | go/cmd/ct-fetch/tiled.go:136-140, 204-210 |
| `C101_zero_batch_fails` | With `batchSize` 0 the first entry of a tiled log kills the process (division by zero) | go/cmd/ct-fetch/tiled.go:305 |
| `C102_clearing_fails`, `C102_stuck_fails` | Review is asked for after each channel, records of disabled channels are removed afterwards: the collection is work-in-progress when the program ends, the filters just published are not signed, and further executions on the same runs do not ask again | moz_kinto_publisher/main.py:1313-1326 |
| `C102_log_list_fails` | The logs come first, and one wrong or repeated identifier in Google's list ends the program before any filter or intermediate is published | moz_kinto_publisher/main.py:1309-1311, 1142-1158 |
| `C102_unmarked_fails` | A record of a known log without `crlite_enrolled` raises `KeyError`: every execution, also a dry run, ends before any filter or intermediate is published | moz_kinto_publisher/main.py:1217-1218 |
| `C103_case_fails` | A member `PEM` beside `pem` is what the Go programs read, and not what the others read; no program writes one | go/rootprogram/issuers.go:349-359, rust-query-crlite/src/main.rs:98-103 |
| `C103_null_fails` | The text `null` is a log state that begins at entry 0, and an empty list of issuers, for the Go programs; the others refuse it; no program writes it | go/storage/rediscache.go:236-247, go/rootprogram/issuers.go:349-359 |
| `C102_unnoticed_fails` | Refused requests about logs are caught: the execution succeeds and submits the collection although logs are missing | moz_kinto_publisher/main.py:1185-1186, 1206-1207, 1247-1248 |
| `C103_octets_fails` | A subject whose octets are not UTF-8 is written with U+FFFD in their place | go/rootprogram/issuers.go:336-340 |
| `C104_stuck_fails` | The intermediates file is only fetched if there is none, so a part of it that an interrupted update left makes every later start fail until `--update` is given | rust-query-crlite/src/main.rs:338-343 |
| `C105_hidden_fails` | The distribution point check decodes the first armour anywhere in the file (`pem.Decode`), the signature check only armour at its start: a CRL of another partition in which somebody on the way puts a self-made CRL into the unsigned parameters of the outer signature algorithm passes both, so the substitution is not reported. `query_cert_pem_or_der_bytes` has the same gap: the certificate that is judged may be one hidden in the certificate | go/cmd/aggregate-crls/aggregate-crls.go:216-224, rust-query-crlite/src/main.rs:586-594 |
| `C106_stale_start_fails` | The loop of `SyncLog` loads the log state for the next job as soon as the job before has put its last message into the channel of 16384 messages. If the database thread is behind, the next job starts from an old state, and its first states replace newer ones: the published range and the coverage cutoff shrink until the job catches up. Two workers for one log (C28) do the same | go/cmd/ct-fetch/ct-fetch.go:84, 109-166 |
| `C106_lost_fails` | A certificate covered before, and first known as revoked in a run whose coverage has shrunk below its SCTs, is in the delta of that run only, which does not cover it: clients answer Good until the next full filter | the same, with rust-create-cascade/src/main.rs:700-740 |
| `C107_skipped_fails` | A file that does not exist, cannot be read or is not a certificate is skipped with a warning, and the exit status is 0: a script that checks certificates by the status takes a misspelt name for a good certificate. The same error with crt.sh gives 1 | rust-query-crlite/src/main.rs:598-624 |
| `C107_bundle_fails` | `pem::parse` takes the first armoured text of a file. In a file with a private key before the certificate, or with a chain, the others are not looked at: the status is 0 | rust-query-crlite/src/main.rs:587-590 |
| `C107_unreachable_fails` | One host that is not reached ends the loop with status 1, which says that a certificate is revoked; the hosts after it are not asked. A sign-off over a list of hosts fails with the first one that is down | rust-query-crlite/src/main.rs:505-509, 539-543, 774-777 |
| `C107_second_address_fails` | A host is judged by the first of its addresses that answers; a revoked certificate on another address is not seen | rust-query-crlite/src/main.rs:529-538 |
| `C107_stage_fails` | The URL of `enrolled.json` is that of the production bucket for all instances. After `--update stage` the filters are those of the staging run and the issuers those of the production run with the same name, or none: certificates of other issuers are NotEnrolled and the status is 0. `--update dev` is `--update stage` | rust-query-crlite/src/main.rs:39-40, 136, 735-739 |
| `C108_damaged_fails`, `C108_unseen_fails` | The list of timestamps ends without an error at the first one that cannot be read; the ones after it are not seen. If they are the only covered ones, a revoked certificate is NotCovered | rust-query-crlite/src/main.rs:236-242 |
| `C108_duplicate_fails` | A certificate with two timestamp extensions is treated as one without timestamps, not as malformed: it is NotCovered even if it is revoked | rust-query-crlite/src/main.rs:232-235 |
| `C108_name_fails` | The issuer is looked up by the octets of its name. If the certificate has the name with another string type than the issuer's certificate, which RFC 5280 7.1 allows, the answer is NotEnrolled, although ct-fetch recorded the certificate under the issuer | rust-query-crlite/src/main.rs:448-450 |
| `C109_remove_fails` | SetRemove of the in-memory cache moves the last member into the gap and so loses the order its binary search needs: of the members 1, 2, 3, 4 a removal of 1 and 2 leaves 2, 3, 4. Tests of the commit step see serials that were to be removed; Redis removes them | go/storage/mockcache.go:101 |
| `C109_expiry_fails`, `C109_lock_fails`, `C109_restore_fails` | SetInsertMany of the in-memory cache drops the expiry times, its lock has no expiry, and Restore does not ask for the lock | go/storage/mockcache.go:73-81, 264, 299-301 |
| `C109_slash_fails`, `C109_keys_fails` | The in-memory cache does not strip slashes at the end of log URLs, and its pattern does not match keys with slashes | go/storage/mockcache.go:192, 212, 219 |
| `C110_cut_fails`, `C110_empty_fails` | A report whose download ended early is accepted if it ends outside of quotes: with a shortened URL as a CRL, without the missing rows, or with no issuers at all if only the header came | go/rootprogram/issuers.go:105-135 |
| `C110_bom_fails` | A byte order mark before the header becomes part of the name of the first column; if that column is needed the report is refused | go/rootprogram/issuers.go:111-127 |
| `C111_stuck_fails` | When Redis is full, `AcquireCommitLock` (a `SET`) is refused too, so no commit can run and free memory, contrary to the comment in ct-fetch; both programs wait until bins expire | go/storage/rediscache.go:274-290, go/cmd/ct-fetch/ct-fetch.go:253-259 |
| `C111_evicted_fails`, `C111_published_fails`, `C111_epoch_evicted_fails`, `C111_log_evicted_fails`, `C111_policy_ignored_fails` | With a `volatile-…` policy Redis throws away exactly the bins, while log states and epoch stay: coverage is published for certificates that are nowhere. With an `allkeys-…` policy the epoch may go, and no commit begins until a restart; or the state of a log may go, and the next commit withdraws the coverage of that log. The wrong policy is only logged | go/storage/rediscache.go:52-56 |
| `C112_octal_fails`, `C112_underscore_fails`, `C112_hex_fails`, `C112_bases_fails`, `C112_words_fails` | `010` is 10 in the environment and 8 in the file; `yes`, `on`, `1_000`, `0x10` and 2147483648 threads count in the file only | go/config/config.go:42, 53, 65, 77, 89, 100 |
| `C112_ignored_fails` | A text in the environment that is no number is treated as if it were not there; nothing is logged | go/config/config.go:40-59 |
| `C112_no_workers_fails` | With `numThreads` zero or negative `aggregate-known` and `aggregate-crls` do nothing and exit with status 0 | go/cmd/aggregate-known/aggregate-known.go:248, go/cmd/aggregate-crls/aggregate-crls.go:431, 445 |
| `C112_batch_zero_fails` | `batchSize` 0 makes ct-fetch divide by zero when it fills in older entries; jobs for newer entries are empty ranges (near 2^64 it does end at the start: `C112_batch_huge`) | go/cmd/ct-fetch/rfc6962.go:265, 330-346, go/cmd/ct-fetch/tiled.go:305 |
| `C112_no_pause_fails` | `pollingDelay` 0 makes the health endpoint report failure, `remoteSettingsUpdateInterval` 0 or above 9223372036 asks for the list of logs without a pause | go/cmd/ct-fetch/ct-fetch.go:423, 520 |
| `C113_ended_fails`, `C113_stale_head_fails` | When a job of a log ends with an error, its goroutine returns and the log stays in the map of enrolled logs; later answers say "Remains enrolled" and start nothing, so the log is not followed until the process is started again. One old tree head is enough | go/cmd/ct-fetch/ct-fetch.go:131-151, 387-395 |
| `C113_changed_fails` | A new address, key or merge delay of an enrolled log is not taken over while the process runs | go/cmd/ct-fetch/ct-fetch.go:388-395 |
| `C113_gone_fails` | A log whose record was deleted, as the publisher does with logs gone upstream, is followed on | go/cmd/ct-fetch/ct-fetch.go:387-403, moz_kinto_publisher/main.py:1197-1206 |
| `C114_clock_fails`, `C114_clock_far_fails` | The waits measure their limit with `datetime.now()`, which is local time: when summer time ends during a wait, or the clock is set back, a wait of 5 minutes goes on for more than an hour; when summer time begins, it ends after 30 seconds | workflow/__init__.py:119-124, moz_kinto_publisher/main.py:140-144 |
| `C114_stale_fails` | The runs are listed once, before the wait, although the loop asks for the newest run again in each turn: if there is none, or the newest has died, the publisher waits for the whole time and gives up although another run is complete meanwhile | moz_kinto_publisher/main.py:108-111, 138-153 |
| `C115_statsd_fails` | `--statsd-host ${statsdHost}` without quotes: if the variable is not set, `--statsd-host` takes no value and `2-generate_mlbf` refuses its arguments. The script ends with an error after the source data were uploaded; no filter is ever built. 2-generate_mlbf:61 and the Go programs take the host as optional | containers/scripts/crlite-generate.sh:56, 62 |
| `C115_log_dir_fails` | `${WORKDIR}` is set nowhere (the `WORKDIR` of the Dockerfile is no variable), so aggregate-known is told to log to `/log`; aggregate-crls logs to `${ID}/log` | containers/scripts/crlite-generate.sh:32 |
| `C115_outdir_fails` | Without `--reason-set` the filter has all reasons, but its folder is called `clubcard-None`, where the publisher does not look | workflow/2-generate_mlbf:71-73 |
| `C115_inherited_fails` | `ARGS` is set only if there are to be no changes, and otherwise taken from the environment: it can name another bucket | containers/scripts/crlite-publish.sh:7-16 |
| `C115_again_fails`, `C115_credentials_fails` | In a file system where they ran before, the publisher does not start, as `mkdir` fails, and the credentials are appended to those in the file | containers/scripts/crlite-publish.sh:12, workflow/0-set_credentials.inc:5 |
| `C115_signoff_fails` | DoNotUpload does not keep crlite-signoff.sh from signing | containers/scripts/crlite-signoff.sh:23-37 |
| `C116_wrap_fails` | Go's `time.ParseDuration` adds with 64 bits and checks for more than 2^63 afterwards: `9223372036854775808ns9223372036854775808ns5s` is five seconds | go/engine/engine.go:23, 65 |
| `C116_timeout_fails` | `redisTimeout = 0` is not refused and means three seconds, and a timeout below zero means none: the programs then wait for Redis for ever | go/engine/engine.go:23-28, go/storage/rediscache.go:39-45 |
| `C116_host_fails` | With a host for statistics `statsRefreshPeriod` is not looked at, so that a mistake in it shows only when the host is taken away | go/engine/engine.go:47-65 |
| `C117_lost_fails` | A query with a semicolon has no pairs, so that `?a;b` and `?;ab` have the same normal form; their file names are the same too, and the CRL that is downloaded second is processed for both | go/cmd/aggregate-crls/aggregate-crls.go:51-80 |
| `C117_dropped_fails` | Parts of the query that `Query` cannot parse are dropped without an error | go/cmd/aggregate-crls/aggregate-crls.go:54 |
| `C117_bytes_fails` | The comparison of an issuing distribution point with the fetched URL is up to the order of parameters and their escapes; the comment asks for a match byte for byte (the outcome is only reported) | go/cmd/aggregate-crls/aggregate-crls.go:205-252, 350-360 |
| `C118_zone_fails` | `isoformat` of a time with zone ends in `+00:00`, and `Z` is added: the names have `+00:00Z`, which is no time of RFC 3339 | moz_kinto_publisher/main.py:789-791, 815-817 |
| `C118_same_second_fails` | Of two records for one second the delta sorts before the full filter, even if the full filter is older | moz_kinto_publisher/main.py:791, 817, 994 |
| `C118_midnight_fails` | The clock is read twice: a run that begins just before midnight has one day in its name and the next in its file | workflow/0-allocate_identifier:23, 40 |
| `C118_offset_fails` | An offset in the file `timestamp` is read and then replaced by UTC (it is never written) | moz_kinto_publisher/main.py:160-162 |
| `C119_old_fails` | A record without `channel` counts as one of `default` for the publisher; it has no expression either, so clients of all versions and channels get it | moz_kinto_publisher/main.py:701, 849, 989 |
| `C123_end_fails` | the measurements of the last period of a program are never printed: it ends without printing, so the statistics of a short run are empty | telemetry.go:37-51, engine.go:74 |
| `C123_late_fails` | if printing is late by five periods with measurements, the first of them is dropped unprinted | engine.go:73, telemetry.go:40-41 |
| `C124_encode_fails` | get-mozilla-issuers exits with 0 although the list of issuers is incomplete | go/rootprogram/issuers.go:337-347 |

`C67_malformed_blocks` is no disagreement but worth knowing: one malformed record stops all publishing until it is removed by hand.

## 5. Mutation tests

`seeded/LOG.jsonl` has one line per wrong program that was tried: the definition that was edited in a scratch copy,
the edit, the claim it breaks, the theorems that failed, and the theorems that were tightened because they
did not fail.

Two kinds of edits were tried:

* Edits by hand (identifiers of one or two letters and a number). Each one is a bug that a person might make, with the claim it breaks.
* Edits by a script (identifiers that begin with `auto`). The script takes the definitions of the model and
  changes one thing at a time: it shifts the boundary of a comparison, adds one to a number or drops a `+ 1`, exchanges `∧` and `∨`, true and
  false, `take` and `drop`, first and last, drops an update, negates a condition or fixes its value, drops a part of it,
  swaps the branches of an `if`, two arms or two arguments, drops one side of an append or swaps the sides, and changes a character or a string. An edit that
  no theorem noticed was looked at: either a theorem was tightened, or the edited program does the same as the program, which is then said in
  the field `note`.

An edit counts as noticed only if a theorem listed in the manifest fails, or a lemma that one of them needs; a failing example alone does
not count.

How to read the fields:

* `theorems_failed` and `lemmas_failed` are what the build of the edited copy reported.
* `theorems_depending` was not observed. Lean does not build what comes after a failed module, so these are the theorems whose
  text leads to a failed lemma, found by name in the present sources. Some were written after the edit was tried. Long lists are left out or cut.
* In 1802 of the 3277 records only lemmas failed. A lemma that fails shows that a proof broke, not that the claim is false of the edited program,
  so these records are weaker evidence than the 1348 in which a theorem failed itself.
* `theorems_tightened` with an empty `theorems_failed` is an edit that nothing noticed at first.
* 17 edits that were tried have no record: 8 builds ran out of time, in 6 no theorem was found that depends on what failed, and in 3 by hand
  the build failed without the name of a theorem. They are not counted as noticed.
