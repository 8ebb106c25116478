{"id": "C01", "title": "Cached certificate entries survive the cache encoding unchanged", "statement": "A certificate entry (SCT timestamp, 32-byte log id, serial) that is put in the cache and read back yields the same timestamp, log id and serial; two different entries never have the same cached value.", "quantifier": "every 64-bit timestamp, every 32-byte log id, every serial of any length", "why_tests_cant": "The input space is 2^64 timestamps times unbounded byte strings; tests try a handful.", "anchors": ["go/storage/types.go:SerialCacheKey.NewMember", "go/storage/types.go:SerialCacheEntry.AsSerial", "go/storage/types.go:SerialCacheEntry.IsCovered"]}
{"id": "C02", "title": "An entry counts as covered exactly when its timestamp is at or before its log's cutoff", "statement": "An entry is reported covered iff its log is among the given log states and its timestamp is at most that log's newest seen timestamp minus the log's maximum merge delay (zero if the delay exceeds it). Entries of logs that are not listed are never covered; the computation does not wrap around.", "quantifier": "every set of log states, every entry, every timestamp and merge delay", "why_tests_cant": "Involves unsigned subtraction and multiplication at 64-bit boundaries and arbitrary sets of logs.", "anchors": ["go/types.go:CTLogState.CoverageCutoff", "go/types.go:NewCoverageCutoffMap", "go/storage/types.go:SerialCacheEntry.IsCovered"]}
{"id": "C03", "title": "Deduplicating a serial list keeps exactly the same set, sorted and without repeats", "statement": "The deduplicated list is strictly ascending and contains a serial iff the input did.", "quantifier": "every list of serials, of every length and with any repeats", "why_tests_cant": "In-place compaction bugs depend on particular runs of repeats; all lists cannot be enumerated.", "anchors": ["go/types.go:SerialList.Dedup"]}
{"id": "C04", "title": "A stored serial file reads back as exactly the list that was written", "statement": "Writing a list of serials for an expiry date and reading the file for the same date returns the same list in the same order; reading it for a different date is an error; a missing file reads as no serials.", "quantifier": "every serial list (any serial bytes) and every pair of expiry dates", "why_tests_cant": "Line-oriented formats break on particular contents (empty serials, prefixes that look like headers); no finite set of examples covers them.", "anchors": ["go/storage/certdatabase.go:WriteSerialList", "go/storage/certdatabase.go:ReadSerialsFromStorage", "go/storage/certdatabase.go:serialListExpiryLine", "go/types.go:NewSerialFromHex"]}
{"id": "C05", "title": "The filter builder reads the known-certificates file exactly as the aggregator wrote it", "statement": "For any sequence of (expiry date, serial list) blocks appended to an issuer's known file, the filter builder's reader yields exactly the (expiry, serial) pairs in order.", "quantifier": "every sequence of blocks, every list of serials, every non-negative expiry", "why_tests_cant": "The writer is Go and the reader is Rust; no unit test spans both, and the space of files is unbounded.", "anchors": ["go/storage/certdatabase.go:WriteSerialList", "go/cmd/aggregate-known/aggregate-known.go:knownWorker.run", "rust-create-cascade/src/main.rs:KnownSerialIterator"]}
{"id": "C06", "title": "The filter builder reads the revoked file exactly as the CRL aggregator wrote it", "statement": "For any list of (reason, serial) revocations written for an issuer, the reader yields a serial iff it was written with a reason that the chosen reason set does not skip, and two different serials are never confused.", "quantifier": "every list of revocations, every reason byte 0-255, every reason set", "why_tests_cant": "Spans two languages and an unbounded space of files.", "anchors": ["go/cmd/aggregate-crls/aggregate-crls.go:StoreRevokedCertificateList", "rust-create-cascade/src/main.rs:RevokedSerialAndReasonIterator", "rust-create-cascade/src/main.rs:decode_reason", "rust-create-cascade/src/main.rs:decode_serial", "rust-create-cascade/src/main.rs:skip_reason"]}
{"id": "C07", "title": "Revocation reason extraction never invents or truncates a reason", "statement": "For every CRL entry the extracted reason equals the one encoded in its single reason extension (0 if absent); repeated, malformed or out-of-byte-range extensions give an error, never a reason.", "quantifier": "every list of entry extensions and every encoded integer of any size", "why_tests_cant": "Integers range over all of Z; a byte conversion that wraps would only show on particular values.", "anchors": ["go/types.go:Reason", "go/types.go:SerialAndReason"]}
{"id": "C08", "title": "Serial text forms are faithful", "statement": "The hexadecimal and JSON forms of a serial decode to the same bytes, and different serials have different text forms.", "quantifier": "every byte string", "why_tests_cant": "Unbounded input space.", "anchors": ["go/types.go:Serial.HexString", "go/types.go:Serial.MarshalJSON", "go/types.go:Serial.UnmarshalJSON", "go/types.go:NewSerialFromHex"]}
{"id": "C09", "title": "Bin names identify issuer and expiry uniquely and parse back", "statement": "The cache name of an (expiry date, issuer) bin parses back to the same pair and no two pairs share a name; likewise the internal handle under which a bin is looked up is unique to the pair.", "quantifier": "every expiry date id and every issuer id", "why_tests_cant": "Depends on no component containing the separator and on component lengths; requires reasoning over all ids.", "anchors": ["go/storage/types.go:NewSerialCacheKey", "go/storage/certdatabase.go:GetIssuerAndDatesFromChannel", "go/storage/certdatabase.go:GetSerialCacheKey"]}
{"id": "C10", "title": "Expiry date identifiers round-trip", "statement": "The identifier of an expiry date parses to the same date at the same resolution, and two certificates share an identifier exactly when they expire in the same hour.", "quantifier": "every hour-resolution and every day-resolution date from year 0 to 9999", "why_tests_cant": "Calendar arithmetic has rare cases (leap years, century rules) over millions of values.", "anchors": ["go/types.go:NewExpDate", "go/types.go:NewExpDateFromTime", "go/types.go:ExpDate.ID"]}
{"id": "C11", "title": "A stored bin is only dropped when every certificate in it has expired", "statement": "If a bin is removed from storage (or skipped when aggregating) as expired at time now, every certificate whose NotAfter was assigned to that bin has NotAfter strictly before now.", "quantifier": "every NotAfter instant and every now", "why_tests_cant": "Concerns every instant in a truncation window; off-by-one at the boundary is a single instant.", "anchors": ["go/types.go:NewExpDateFromTime", "go/types.go:NewExpDate", "go/types.go:ExpDate.IsExpiredAt", "go/storage/certdatabase.go:removeExpiredSerialsFromStorage", "go/storage/certdatabase.go:PrepareSetMember"]}
{"id": "C12", "title": "Cached entries do not vanish before the certificate expires", "statement": "The expiry given to the cache for an entry is not before the certificate's NotAfter.", "quantifier": "every NotAfter instant", "why_tests_cant": "Boundary property over all instants. (The code truncates to the hour, so this fails inside the last hour.)", "anchors": ["go/storage/types.go:NewMember", "go/types.go:NewExpDateFromTime", "go/storage/certdatabase.go:PrepareSetMember", "go/storage/rediscache.go:SetInsertMany"]}
{"id": "C13", "title": "Filter keys of different certificates never coincide", "statement": "The key under which a certificate enters the filter determines both its issuer and its serial, and the issuer file name determines the issuer id.", "quantifier": "every pair of (32-byte issuer id, serial)", "why_tests_cant": "Concatenated keys collide only for special lengths; unbounded space.", "anchors": ["rust-create-cascade/src/main.rs:crlite_key", "rust-create-cascade/src/main.rs:decode_issuer", "rust-create-cascade/src/main.rs:decode_serial", "go/types.go:Issuer.ID"]}
{"id": "C14", "title": "Per-log state is stored under a key that trailing slashes do not change and distinct logs do not share", "statement": "Saving a log's state and loading it by its URL, with or without trailing slashes, gives the saved state; saving one log's state never changes what loads for a log with a different URL (modulo trailing slashes).", "quantifier": "every URL and every sequence of saves", "why_tests_cant": "Unbounded histories and strings.", "anchors": ["go/storage/rediscache.go:shortUrlToLogKey", "go/storage/rediscache.go:StoreLogState", "go/storage/rediscache.go:LoadLogState", "go/storage/certdatabase.go:GetLogState"]}
{"id": "C15", "title": "The streaming tree verifier accepts exactly the leaves whose RFC 6962 tree hash is the claimed root", "statement": "After feeding the leaves of an index range one at a time, the claim check succeeds iff the number of leaves equals the range size and the RFC 6962 Merkle tree hash of the leaves equals the expected root.", "quantifier": "every range size from 1 up, every leaf sequence, every root, every hash function with 32-byte output", "why_tests_cant": "The merge logic depends on the binary expansion of the size; tests cover a few sizes only.", "anchors": ["go/cmd/ct-fetch/rfc6962.go:CtLogSubtreeVerifier.Consume", "go/cmd/ct-fetch/rfc6962.go:CheckClaim", "go/cmd/ct-fetch/rfc6962.go:CtLogSubtree.Size"]}
{"id": "C16", "title": "Two different accepted downloads for the same root exhibit a hash collision", "statement": "If two different leaf sequences of the same range are both accepted for the same root then a collision of the hash function on concrete inputs can be exhibited.", "quantifier": "every pair of leaf sequences of every length, every hash function", "why_tests_cant": "A security reduction over all inputs.", "anchors": ["go/cmd/ct-fetch/rfc6962.go:Consume", "go/cmd/ct-fetch/rfc6962.go:CheckClaim"]}
{"id": "C17", "title": "The subtrees named by a consistency proof are the ones RFC 6962 prescribes", "statement": "For every 0 < old < new the index ranges derived for the nodes of a consistency proof are, in order, the ranges of the nodes of PROOF(old, D[new]) of RFC 6962, and derivation terminates; new <= old or a wrong number of nodes is an error.", "quantifier": "every pair of tree sizes and every proof", "why_tests_cant": "Recursion on the binary structure of two unbounded sizes.", "anchors": ["go/cmd/ct-fetch/rfc6962.go:consistencyProofToSubtrees", "go/cmd/ct-fetch/rfc6962.go:Midpoint"]}
{"id": "C18", "title": "The verified subtrees of a job cover its index range exactly, once and in order", "statement": "For every job the retained subtrees, in processing order, are adjacent, disjoint and their union is the job's whole index range; ascending for initial and update jobs, descending for backfill jobs.", "quantifier": "every job range with first index at least 1, and jobs from 0 of tree size over 3", "why_tests_cant": "Gaps would silently leave certificates undownloaded; depends on arithmetic over all size pairs.", "anchors": ["go/cmd/ct-fetch/rfc6962.go:consistencyProofToSubtrees", "go/cmd/ct-fetch/rfc6962.go:LogWorker.Run"]}
{"id": "C19", "title": "An honest log is never rejected", "statement": "If the log returns the true consistency proof and the true entries, every subtree claim check of the job succeeds.", "quantifier": "every tree, every job range, every hash function", "why_tests_cant": "Ranges over all trees and all size pairs.", "anchors": ["go/cmd/ct-fetch/rfc6962.go:consistencyProofToSubtrees", "go/cmd/ct-fetch/rfc6962.go:CheckClaim", "go/cmd/ct-fetch/rfc6962.go:Run"]}
{"id": "C20", "title": "Jobs stay inside the log and next to what has already been fetched", "statement": "Every job's index range is non-empty, lies below the tree size, has at most the batch size entries, and (unless it is the first job) is adjacent to the claimed range without overlapping it.", "quantifier": "every log state, tree size, batch size and last-update time", "why_tests_cant": "Arithmetic over unbounded 64-bit states with several unsigned subtractions.", "anchors": ["go/cmd/ct-fetch/rfc6962.go:NewLogWorker", "go/cmd/ct-fetch/rfc6962.go:Run"]}
{"id": "C21", "title": "Every range a log worker reports was actually downloaded and verified", "statement": "Whenever a worker emits a log state claiming entries [min,max], every entry of that range was handed to the store queue (or deliberately skipped) before that state, in this or an earlier run.", "quantifier": "every server behaviour, error pattern, cancellation point and sequence of restarts", "why_tests_cant": "Quantifies over all adversarial response sequences and interleavings.", "anchors": ["go/cmd/ct-fetch/rfc6962.go:Run", "go/cmd/ct-fetch/rfc6962.go:updateState", "go/cmd/ct-fetch/rfc6962.go:downloadCTRangeToChannel", "go/cmd/ct-fetch/tiled.go:Run"]}
{"id": "C22", "title": "A saved log state never gets ahead of the saved certificates", "statement": "At any moment, including after a crash, if the database holds a log state then every certificate that was queued before that state is in the database.", "quantifier": "every queue content, batch size, database failure pattern, cancellation and crash point", "why_tests_cant": "Crash points and failure schedules are unbounded.", "anchors": ["go/cmd/ct-fetch/ct-fetch.go:insertCTWorker", "go/cmd/ct-fetch/ct-fetch.go:tryUpdate"]}
{"id": "C23", "title": "Concurrent log workers cannot corrupt each other's coverage claims", "statement": "With any number of workers for any logs, each possibly working from stale saved state, every saved state still only claims entries that are stored.", "quantifier": "every interleaving of every number of workers and restarts", "why_tests_cant": "Schedules are unbounded.", "anchors": ["go/cmd/ct-fetch/ct-fetch.go:SyncLog", "go/cmd/ct-fetch/ct-fetch.go:insertCTWorker", "go/cmd/ct-fetch/ct-fetch.go:EnrolledLogs"]}
{"id": "C24", "title": "The coverage cutoff is justified by the maximum merge delay", "statement": "If a log honours its maximum merge delay, every certificate whose timestamp is at most the newest seen timestamp minus the delay has an index not above the newest fetched entry, so the reported coverage interval is truthful.", "quantifier": "every log content and merge order satisfying the merge-delay promise, every fetched prefix", "why_tests_cant": "Ranges over all possible logs.", "anchors": ["go/types.go:CoverageCutoff", "go/cmd/ct-fetch/rfc6962.go:updateState", "go/cmd/ct-fetch/tiled.go:updateState"]}
{"id": "C25", "title": "A log's claimed range starting at zero includes entry zero", "statement": "For a log fetched from scratch, if the saved state claims entries [0,max] then entry 0 was downloaded.", "quantifier": "every history of a new log starting from an empty database", "why_tests_cant": "Needs reasoning about all initial polls. (Both the tiled worker and the tiny-tree path of the RFC 6962 worker violate it.)", "anchors": ["go/cmd/ct-fetch/tiled.go:Run", "go/cmd/ct-fetch/tiled.go:NewTiledLogWorker", "go/cmd/ct-fetch/rfc6962.go:NewLogWorker", "go/cmd/ct-fetch/rfc6962.go:Run"]}
{"id": "C26", "title": "Recorded timestamps bracket the downloaded entries", "statement": "After any sequence of jobs, the recorded newest timestamp is at least, and the recorded oldest timestamp at most, every timestamp of the downloaded entries, and both are attained by an entry or a signed tree head.", "quantifier": "every job history and every entry timestamps", "why_tests_cant": "Unbounded histories; zero is used as 'unset'. (The idle path of the RFC 6962 worker records an index as a timestamp.)", "anchors": ["go/cmd/ct-fetch/rfc6962.go:updateState", "go/cmd/ct-fetch/rfc6962.go:downloadCTRangeToChannel", "go/cmd/ct-fetch/rfc6962.go:Run", "go/cmd/ct-fetch/tiled.go:updateState"]}
{"id": "C27", "title": "Only expired or issuer-less entries are skipped when storing", "statement": "A log entry is stored iff it parses, is unexpired at the time (or expired entries are configured to be kept) and has an issuer; it is stored under the certificate that actually signs (the second chain element when a precertificate signing certificate is used); every skip is one of the documented reasons.", "quantifier": "every entry kind, chain length, parse outcome and configuration", "why_tests_cant": "Decision logic over all combinations, with fatal and non-fatal parse errors.", "anchors": ["go/cmd/ct-fetch/rfc6962.go:storeLogEntry", "go/cmd/ct-fetch/tiled.go:storeLogEntry", "go/types.go:IsPreIssuer", "go/types.go:ParseCertificate"]}
{"id": "C28", "title": "At most one worker per enrolled log", "statement": "After any sequence of enroll and unenroll requests a log has been handed to a worker once per enrolment, and enrolling an already enrolled log starts nothing.", "quantifier": "every sequence of enroll/unenroll operations", "why_tests_cant": "Unbounded histories.", "anchors": ["go/cmd/ct-fetch/ct-fetch.go:EnrolledLogs", "go/cmd/ct-fetch/ct-fetch.go:Enroll", "go/cmd/ct-fetch/ct-fetch.go:Unenroll"]}
{"id": "C29", "title": "Fetching makes progress until the whole log is covered", "statement": "Against an honest responsive log of fixed size, repeated jobs strictly extend the claimed range until it is the whole log.", "quantifier": "every log size, batch size and starting state reachable by the worker", "why_tests_cant": "Liveness over unbounded runs. (Fails for backfill jobs ending at index 0..2.)", "anchors": ["go/cmd/ct-fetch/rfc6962.go:NewLogWorker", "go/cmd/ct-fetch/rfc6962.go:Run", "go/cmd/ct-fetch/rfc6962.go:consistencyProofToSubtrees"]}
{"id": "C30", "title": "The health endpoint is 200 only when every worker reported recently", "statement": "The endpoint answers 200 iff the last update is set and no older than twice the polling delay; 503 before any update; 500 otherwise.", "quantifier": "every time and polling delay", "why_tests_cant": "Boundary conditions over all instants.", "anchors": ["go/cmd/ct-fetch/ct-fetch.go:main (health handler)"]}
{"id": "C31", "title": "No certificate is lost at any crash point of a commit", "statement": "Whatever step a commit stops at, every serial that was in storage or in the cache before is still in storage or in the cache, except bins that had expired.", "quantifier": "every storage and cache content, every crash point, every failure of an individual operation that is reported to the program", "why_tests_cant": "Crash points times contents are unbounded.", "anchors": ["go/storage/certdatabase.go:Commit", "go/storage/certdatabase.go:moveOneBinOfCachedSerialsToStorage", "go/storage/certdatabase.go:moveCachedSerialsToStorage"]}
{"id": "C32", "title": "Published coverage implies stored serials", "statement": "Whenever the stored log-state file says an entry is covered, and the entry's serial had been saved to the cache by the time the log states were read, its serial is in storage (unless its bin expired).", "quantifier": "every history of inserts, commits, crashes and restarts", "why_tests_cant": "Histories are unbounded.", "anchors": ["go/storage/certdatabase.go:Commit", "go/storage/certdatabase.go:moveOneBinOfCachedSerialsToStorage", "go/storage/types.go:SerialCacheEntry.IsCovered"]}
{"id": "C33", "title": "A refused commit changes nothing", "statement": "If a commit is refused (read only, lock not held, epochs disagree, log states unreadable) storage and cache are unchanged.", "quantifier": "every state and every reason for refusal", "why_tests_cant": "All states.", "anchors": ["go/storage/certdatabase.go:Commit"]}
{"id": "C34", "title": "The epoch protocol detects every divergence between cache and storage that loses serials", "statement": "Over any history of commits, crashes between their steps, and restarts, the consistency check passes exactly when the cache contents are those left by the last completed commit; a cache reset after at least one counted commit is detected.", "quantifier": "every history of commit steps, crashes and cache resets", "why_tests_cant": "Unbounded histories. (A reset after the very first commit, and a storage wipe at epoch 1, are not detected.)", "anchors": ["go/storage/certdatabase.go:EnsureCacheIsConsistent", "go/storage/certdatabase.go:Commit", "go/storage/rediscache.go:GetEpoch", "go/storage/rediscache.go:NextEpoch", "go/storage/rediscache.go:Restore"]}
{"id": "C35", "title": "Uncovered entries stay in the cache until they are covered", "statement": "A commit moves exactly the covered entries of each bin; entries not yet covered remain in the cache and are moved by a later commit whose cutoff reaches them.", "quantifier": "every bin content and every sequence of cutoffs", "why_tests_cant": "Unbounded histories.", "anchors": ["go/storage/certdatabase.go:moveOneBinOfCachedSerialsToStorage"]}
{"id": "C36", "title": "Batched loops process every element exactly once", "statement": "Every bin is moved exactly once per commit and every cached value to delete is deleted exactly once, whatever the number of elements relative to the batch size.", "quantifier": "every list length and every batch size at least 1", "why_tests_cant": "Off-by-one errors at batch boundaries for unbounded lengths.", "anchors": ["go/storage/certdatabase.go:moveCachedSerialsToStorage", "go/storage/rediscache.go:SetRemove"]}
{"id": "C37", "title": "The commit lock is exclusive", "statement": "At most one process holds the commit lock at any time; a process that does not hold it cannot release it.", "quantifier": "every interleaving of acquire, check, release and expiry by any number of processes", "why_tests_cant": "Schedules are unbounded. (Release is check-then-delete, so expiry between the two steps breaks it.)", "anchors": ["go/storage/rediscache.go:AcquireCommitLock", "go/storage/rediscache.go:ReleaseCommitLock", "go/storage/rediscache.go:HasCommitLock"]}
{"id": "C38", "title": "Restoring the cache reproduces the stored state", "statement": "After a successful restore the cache holds exactly the stored log states and an epoch that the consistency check accepts; a restore is refused while the lock is held and then changes nothing.", "quantifier": "every prior cache content and every set of stored log states", "why_tests_cant": "All states.", "anchors": ["go/storage/rediscache.go:Restore", "go/storage/certdatabase.go:EnsureCacheIsConsistent"]}
{"id": "C39", "title": "Migrating log states never loses one and is idempotent", "statement": "Migrating from the old key format leaves each log loadable with its newest state, leaves other keys alone, and migrating twice equals migrating once.", "quantifier": "every cache content in which each state is filed under its own URL", "why_tests_cant": "All states.", "anchors": ["go/storage/rediscache.go:Migrate"]}
{"id": "C40", "title": "Listing bins finds every bin", "statement": "The listing of issuers and dates contains a bin iff it exists with a parseable name, each issuer appears once, and expiry dates are not lost by grouping.", "quantifier": "every set of names, in every order and with repeats", "why_tests_cant": "Unbounded input orders.", "anchors": ["go/storage/certdatabase.go:GetIssuerAndDatesFromChannel", "go/storage/certdatabase.go:GetIssuerAndDatesFromCache", "go/storage/certdatabase.go:GetIssuerAndDatesFromStorage"]}
{"id": "C41", "title": "A certificate within published coverage is known end to end", "statement": "For a log that keeps its merge-delay promise: every unexpired, parseable certificate entry whose timestamp lies in the published coverage interval of its log has its serial in storage.", "quantifier": "every log, worker schedule, crash pattern, commit history", "why_tests_cant": "Composition of fetcher, queue, cache, commit and coverage over unbounded histories.", "anchors": ["go/cmd/ct-fetch/rfc6962.go:Run", "go/cmd/ct-fetch/ct-fetch.go:insertCTWorker", "go/storage/certdatabase.go:Commit", "go/types.go:CoverageCutoff"]}
{"id": "C42", "title": "The in-memory cache used for testing behaves like a set", "statement": "After any sequence of inserts and removes, membership answers match a mathematical set.", "quantifier": "every operation sequence", "why_tests_cant": "Unbounded histories. (Removal swaps in the last element and breaks the order binary search needs.)", "anchors": ["go/storage/mockcache.go:SetInsert", "go/storage/mockcache.go:setRemove", "go/storage/mockcache.go:SetContains"]}
{"id": "C43", "title": "A short write never replaces a good serial file", "statement": "If writing the new serial file is incomplete, the old file stays in place and no cache entry is removed.", "quantifier": "every write failure point", "why_tests_cant": "Fault injection at every byte. (The buffered writer's final flush error is ignored.)", "anchors": ["go/storage/certdatabase.go:WriteSerialList", "go/storage/certdatabase.go:moveOneBinOfCachedSerialsToStorage"]}
{"id": "C44", "title": "A successful known-aggregation run is complete and contains nothing else", "statement": "When the program reports success, the known directory has for every enrolled issuer with stored bins exactly the serials of its unexpired bins, and files for no other issuers; on any read or write error it reports failure.", "quantifier": "every storage content, enrolment, number of workers, schedule and error pattern", "why_tests_cant": "Schedules and contents are unbounded.", "anchors": ["go/cmd/aggregate-known/aggregate-known.go:knownWorker.run", "go/cmd/aggregate-known/aggregate-known.go:work"]}
{"id": "C45", "title": "The aggregation work queue never overflows", "statement": "The queue capacity computed for the work items is always enough for all items, so the overflow error cannot occur.", "quantifier": "every storage listing and enrolment", "why_tests_cant": "Counting argument over all inputs.", "anchors": ["go/cmd/aggregate-known/aggregate-known.go:work", "go/storage/certdatabase.go:GetIssuerAndDatesFromStorage"]}
{"id": "C46", "title": "Revocations of an issuer are published only if all its CRLs were processed", "statement": "The revoked file of an issuer is written iff every CRL listed for it had a local file, passed verification and all its entries were decoded; its content is exactly the revocations of those CRLs, and the issuer is enrolled iff the file is written.", "quantifier": "every set of CRLs and every failure pattern", "why_tests_cant": "All failure combinations.", "anchors": ["go/cmd/aggregate-crls/aggregate-crls.go:aggregateCRLWorker", "go/cmd/aggregate-crls/aggregate-crls.go:processCRL", "go/cmd/aggregate-crls/aggregate-crls.go:StoreRevokedCertificateList"]}
{"id": "C47", "title": "CRL substitution between partitioned CRLs is detected", "statement": "For a partitioned CRL the distribution-point check accepts iff the CRL names the URL it was fetched from and no other partition URL of the issuer; a CRL of another partition is rejected.", "quantifier": "every list of distribution points and every set of known URLs", "why_tests_cant": "All inputs.", "anchors": ["go/cmd/aggregate-crls/aggregate-crls.go:loadAndCheckIssuingDistributionPointOfCRL"]}
{"id": "C48", "title": "A downloaded file replaces the previous one only after verification", "statement": "The final file changes only to content that passed verification; if the call reports success the final file is valid; the temporary file never survives.", "quantifier": "every download outcome, verification outcome, rename outcome and previous file", "why_tests_cant": "All fault combinations.", "anchors": ["go/downloader/verifying-downloader.go:DownloadAndVerifyFileSync"]}
{"id": "C49", "title": "Resumed downloads reproduce the server's file", "statement": "If the server's file did not change between attempts and the server honours ranges, then after any sequence of interrupted attempts that ends with a success the local file equals the server's file.", "quantifier": "every file, every interruption point, every number of attempts", "why_tests_cant": "Interruptions and contents are unbounded.", "anchors": ["go/downloader/downloader.go:determineAction", "go/downloader/downloader.go:download", "go/downloader/downloader.go:DownloadFileSync"]}
{"id": "C50", "title": "Downloads are tried a bounded number of times", "statement": "A download makes at most maxRetries+1 attempts and stops at the first success; it reports an error iff all attempts failed or, if cancelled, reports without error.", "quantifier": "every retry limit and every outcome sequence", "why_tests_cant": "Unbounded sequences.", "anchors": ["go/downloader/downloader.go:DownloadFileSync"]}
{"id": "C51", "title": "Merging CRL maps is a union", "statement": "Merging CRL-URL maps yields for each issuer the union of URLs; merging is commutative, associative and idempotent and never drops a URL.", "quantifier": "every pair of maps", "why_tests_cant": "All inputs.", "anchors": ["go/types.go:IssuerCrlMap.Merge"]}
{"id": "C52", "title": "Only http and https CRL URLs from CCADB are used, and none of those is dropped", "statement": "The URLs taken from an issuer record are exactly the well-formed http(s) ones listed in it; several certificates of one issuer contribute the union of their URLs.", "quantifier": "every record and every order of records", "why_tests_cant": "All inputs and orders. (Whether an issuer counts as using partitioned CRLs depends on record order.)", "anchors": ["go/rootprogram/issuers.go:decodeCrls", "go/rootprogram/issuers.go:InsertIssuer", "go/rootprogram/issuers.go:GetIssuers"]}
{"id": "C53", "title": "The enrolled issuer list survives the hand-over between programs", "statement": "An issuer is in program after loading the saved list iff it was enrolled when the list was saved.", "quantifier": "every set of issuers and enrolment flags", "why_tests_cant": "All inputs.", "anchors": ["go/rootprogram/issuers.go:SaveIssuersList", "go/rootprogram/issuers.go:LoadEnrolledIssuers", "go/rootprogram/issuers.go:IsIssuerInProgram"]}
{"id": "C54", "title": "Configuration precedence", "statement": "Each setting takes the environment value if present and well-formed, otherwise the file value if present and well-formed, otherwise the default; a batch size given on the command line overrides all.", "quantifier": "every combination of sources and values", "why_tests_cant": "All combinations.", "anchors": ["go/config/config.go:confInt", "go/config/config.go:confUint64", "go/config/config.go:confBool", "go/config/config.go:confString", "go/config/config.go:Init"]}
{"id": "C55", "title": "CRLs of different URLs are kept in different files", "statement": "Two URLs with different normal forms get different local file names unless their truncated SHA-256 digests coincide; a file name never contains a path separator.", "quantifier": "every pair of URLs", "why_tests_cant": "Unbounded inputs.", "anchors": ["go/cmd/aggregate-crls/aggregate-crls.go:makeFilenameFromUrl", "go/cmd/aggregate-crls/aggregate-crls.go:normalizedUrlString"]}
{"id": "C56", "title": "Every known certificate is encoded with the right status and none is left out", "statement": "For each issuer the filter builder includes exactly the known serials that are revoked (under the reason set), excludes exactly the other known serials, and a revoked serial that is not known is never included.", "quantifier": "every known file, every revoked file, every reason set", "why_tests_cant": "Unbounded inputs with repeats.", "anchors": ["rust-create-cascade/src/cascade_helper.rs:include", "rust-create-cascade/src/cascade_helper.rs:exclude", "rust-create-cascade/src/clubcard_helper.rs:clubcard_do_one_issuer", "rust-create-cascade/src/main.rs:include_all", "rust-create-cascade/src/main.rs:exclude_all"]}
{"id": "C57", "title": "The announced capacity equals the number of included keys", "statement": "The number of revoked keys counted in the first pass equals the number of keys inserted in the second pass, and the counted universe equals known entries, for any repeats.", "quantifier": "every directory content", "why_tests_cant": "The two passes are different code; a mismatch breaks the filter only for particular inputs.", "anchors": ["rust-create-cascade/src/main.rs:count", "rust-create-cascade/src/main.rs:count_all", "rust-create-cascade/src/cascade_helper.rs:include", "rust-create-cascade/src/clubcard_helper.rs:clubcard_do_one_issuer"]}
{"id": "C58", "title": "The delta holds exactly the newly revoked certificates", "statement": "The delta files list exactly the known revoked keys not in the previous revocation set, and the new revocation set is exactly the known revoked keys; an unreadable previous set gives a delta with everything.", "quantifier": "every previous set, known and revoked contents", "why_tests_cant": "Unbounded inputs.", "anchors": ["rust-create-cascade/src/main.rs:write_revset_and_delta"]}
{"id": "C59", "title": "A full filter plus its deltas knows every revocation", "statement": "If each run's delta is built against the previous run's set, then after any number of runs a certificate revoked and known at the last run is in the full filter's set or in one of the deltas.", "quantifier": "every number of runs and every sequence of revocation sets", "why_tests_cant": "Induction over unbounded histories.", "anchors": ["rust-create-cascade/src/main.rs:write_revset_and_delta", "workflow/2-generate_mlbf:main", "workflow/3-upload_mlbf_to_storage:main"]}
{"id": "C60", "title": "Deltas of the priority channel are complete too", "statement": "The same completeness holds for the filter restricted to priority reasons, whose delta is built against the previous run's all-reasons set.", "quantifier": "every history of revocation reasons", "why_tests_cant": "Histories. (A certificate whose reason is upgraded after it was first revoked is missed.)", "anchors": ["workflow/2-generate_mlbf:main", "workflow/3-upload_mlbf_to_storage:main", "rust-create-cascade/src/main.rs:write_revset_and_delta"]}
{"id": "C61", "title": "Reason sets are nested and follow the RFC 5280 codes", "statement": "The priority set is within the specified set, which is within all; a revocation is skipped under a reason set iff its code is outside the set; unknown codes count as unspecified.", "quantifier": "every reason byte", "why_tests_cant": "Finite but complete enumeration as theorem, and monotonicity of filters over all inputs.", "anchors": ["rust-create-cascade/src/main.rs:Reason", "rust-create-cascade/src/main.rs:skip_reason", "rust-create-cascade/src/main.rs:decode_reason"]}
{"id": "C62", "title": "The stash can be decoded to exactly what was revoked", "statement": "Decoding the stash file yields for each issuer exactly the new revoked serials, for any number of issuers.", "quantifier": "every list of issuers and serials whose serials are shorter than 256 bytes", "why_tests_cant": "Unbounded input; length prefix of one byte. (Longer serials are truncated lengths.)", "anchors": ["rust-create-cascade/src/main.rs:write_stash"]}
{"id": "C63", "title": "A revoked answer from any filter wins", "statement": "The query answer is Revoked iff the certificate's issuer is enrolled in the intermediates list, the certificate is in its validity period and some filter says revoked; the answer does not depend on filter order, and adding filters never turns Revoked into anything else.", "quantifier": "every list of filters and every certificate", "why_tests_cant": "All lists and orders.", "anchors": ["rust-query-crlite/src/main.rs:CRLiteDB.query"]}
{"id": "C64", "title": "Updating the client database leaves exactly the listed filters", "statement": "After a successful update the directory's filter files are exactly the listed ones and each has the listed digest; with zero or several full filters the update fails.", "quantifier": "every prior directory and every record list", "why_tests_cant": "All states.", "anchors": ["rust-query-crlite/src/main.rs:update_db"]}
{"id": "C65", "title": "The intermediates of the newest downloaded run are used", "statement": "The list of intermediates fetched is that of the greatest run, by date and then revision as numbers, among the filter files of the directory, in whatever order the directory is listed.", "quantifier": "every directory and order of listing", "why_tests_cant": "All directories and orders. (Fails for stray files: every file name counts, not only filters.)", "anchors": ["rust-query-crlite/src/main.rs:update_intermediates", "rust-query-crlite/src/main.rs:extract_run_id"]}
{"id": "C66", "title": "The published-record check accepts exactly a single chain", "statement": "The consistency check on a channel's records passes iff the records are empty or form one chain: one full filter and each further record the child of the previous one, using all records.", "quantifier": "every list of records with any parent links, including cycles, branches and repeats", "why_tests_cant": "All graphs.", "anchors": ["moz_kinto_publisher/main.py:crlite_verify_record_consistency"]}
{"id": "C67", "title": "Publishing keeps the channel a single chain", "statement": "Starting from an accepted channel, publishing deltas or a full filter leaves a channel the check accepts, and every published delta's parent is the previous tip.", "quantifier": "every accepted channel and every list of new runs", "why_tests_cant": "Unbounded histories. (If the record with the greatest name is not the tip the chain branches.)", "anchors": ["moz_kinto_publisher/main.py:publish_crlite", "moz_kinto_publisher/main.py:publish_crlite_record", "moz_kinto_publisher/main.py:crlite_verify_record_consistency"]}
{"id": "C68", "title": "No run is skipped when deltas are published", "statement": "When deltas are to be uploaded they are exactly all runs after the newest published one, in increasing order, all complete and valid; otherwise a full filter of the newest run is uploaded and all old records are cleared.", "quantifier": "every set of runs and every list of published records", "why_tests_cant": "All inputs.", "anchors": ["moz_kinto_publisher/main.py:crlite_determine_publish", "moz_kinto_publisher/main.py:crlite_verify_run_id_consistency"]}
{"id": "C69", "title": "Filters older than the channel's limit are replaced", "statement": "If the newest run is at least the channel's age limit newer than the oldest published run, a full filter is published.", "quantifier": "every list of runs and times", "why_tests_cant": "All inputs. (The oldest run is chosen by string comparison, which misorders multi-digit run numbers.)", "anchors": ["moz_kinto_publisher/main.py:crlite_determine_publish"]}
{"id": "C70", "title": "Review of intermediates is only requested when the published set equals the local set", "statement": "If review is requested, the remote intermediates equal the local ones; no valid unchanged record is deleted and re-created.", "quantifier": "every local and remote set and failure pattern", "why_tests_cant": "All inputs.", "anchors": ["moz_kinto_publisher/main.py:publish_intermediates"]}
{"id": "C71", "title": "Publishing CT logs preserves enrolment", "statement": "Updating CT-log records keeps each existing record's enrolment flag, adds new logs unenrolled, deletes only logs gone upstream; a dry run changes nothing; duplicated log ids are refused.", "quantifier": "every upstream and published list", "why_tests_cant": "All inputs.", "anchors": ["moz_kinto_publisher/main.py:publish_ctlogs"]}
{"id": "C72", "title": "Run identifiers are fresh and ordered", "statement": "A newly allocated identifier differs from and is greater than all earlier ones, and the sort order used equals allocation order.", "quantifier": "every history of allocations and dates", "why_tests_cant": "Unbounded histories. (Fails if the clock goes back; normal form misorders indexes over six digits.)", "anchors": ["workflow/0-allocate_identifier:main", "workflow/__init__.py:normalize_identifier", "workflow/__init__.py:get_run_identifiers"]}
{"id": "C73", "title": "The completed marker appears last", "statement": "At every crash point of an upload, if the completed marker of a run exists then all its files were uploaded.", "quantifier": "every crash point and file list", "why_tests_cant": "All crash points.", "anchors": ["workflow/3-upload_mlbf_to_storage:main", "moz_kinto_publisher/main.py:PublishedRunDB.is_run_ready"]}
{"id": "C74", "title": "A revoked, known certificate is reported revoked by the client", "statement": "If filters answer exactly on the universe they were built from, then for any sequence of runs a certificate that is known, unexpired, of an enrolled issuer and revoked under the channel's reason set at the last run is answered Revoked by a client holding the full filter and all deltas, and a known non-revoked certificate that was never revoked is not.", "quantifier": "every sequence of runs, every certificate", "why_tests_cant": "Composition over unbounded histories.", "anchors": ["rust-create-cascade/src/main.rs:main", "rust-query-crlite/src/main.rs:CRLiteDB.query", "moz_kinto_publisher/main.py:publish_crlite"]}
{"id": "C75", "title": "A stored certificate is the one the log committed to", "statement": "A certificate stored from a log entry is the certificate covered by the verified Merkle leaf.", "quantifier": "every log entry, every malicious server", "why_tests_cant": "A malicious server's entries are not in test data; needs all inputs. (Fails for precertificates: the stored certificate comes from extra_data, which the leaf hash does not cover.)", "anchors": ["go/cmd/ct-fetch/rfc6962.go:LogWorker.storeLogEntry", "go/cmd/ct-fetch/tiled.go:TiledLogWorker.storeLogEntry"]}
{"id": "C76", "title": "A broken download makes progress when resumed", "statement": "If a connection breaks after some bytes, the next attempt continues after those bytes, so repeated attempts finish.", "quantifier": "every content and cut position", "why_tests_cant": "Needs all lengths and cut positions. (Fails: the request carries Content-Range instead of Range.)", "anchors": ["go/downloader/downloader.go:download"]}
{"id": "C77", "title": "A CRL never replaces a newer one", "statement": "After a download, the CRL on disk is never older than the one before.", "quantifier": "every pair of CRLs", "why_tests_cant": "Rollback needs an adversarial server. (Fails: the comparison is in a function that nothing but tests calls.)", "anchors": ["go/cmd/aggregate-crls/aggregate-crls.go:verifyCRL"]}
{"id": "C78", "title": "A report cut short by an interrupted download is not used", "statement": "Issuers are only ever loaded from a complete CCADB report.", "quantifier": "every history of downloads and runs", "why_tests_cant": "Needs an interrupted run followed by another. (Fails: the download writes onto the report itself.)", "anchors": ["go/rootprogram/issuers.go:Load"]}
{"id": "C79", "title": "Exactly the non-revoked intermediates that chain to a root are loaded", "statement": "An issuer is loaded iff it has a complete, non-revoked intermediate row whose certificate chains to a root of the report; its URLs are the union over its certificates of the URLs in their rows. Whenever aggregate-crls checks the CRLs of an issuer it finds a certificate for it, which has the key of the issuer and is one of these.", "quantifier": "every report and map iteration order", "why_tests_cant": "All reports; iteration order is random in Go.", "anchors": ["go/rootprogram/issuers.go:LoadFromDisk"]}
{"id": "C80", "title": "Records of other channels do not stop an update", "statement": "Whether and how the client updates depends only on the records of its channel.", "quantifier": "every record list", "why_tests_cant": "All lists. (Fails: a record of a channel the client does not know makes the whole collection unreadable.)", "anchors": ["rust-query-crlite/src/main.rs:update_db", "rust-query-crlite/src/main.rs:CRLiteFilterChannel", "moz_kinto_publisher/main.py:CHANNELS"]}
{"id": "C81", "title": "Published deltas are computed against the run before", "statement": "In every state that generations and publications can reach, wherever they were stopped: a channel that is a chain consists of the full filter of a complete run and the deltas of the runs that follow it in the bucket without a gap, and each delta was computed against exactly the revocation set that the run before it has uploaded (or against none, if the download failed).", "quantifier": "every sequence of generations, uploads stopped at any object, failed downloads and generations, and publications with any failures, in any channels, each of whose requests to the bucket is answered at any earlier moment; clock not going back, one generation at a time", "why_tests_cant": "The delta chain is the joint work of the allocator, two uploads, the download of latest/revset.bin and the publisher, over arbitrarily many partial runs; a gap shows up only as a certificate that stays unrevoked.", "anchors": ["containers/scripts/crlite-generate.sh", "workflow/2-generate_mlbf:main", "workflow/3-upload_mlbf_to_storage:main", "workflow/0-allocate_identifier:main", "moz_kinto_publisher/main.py:crlite_determine_publish", "moz_kinto_publisher/main.py:publish_crlite"]}
{"id": "C82", "title": "The published chain answers Revoked for what the last run knows to be revoked", "statement": "After any history of generations and publications, a client with the filters of a channel that is a chain answers Revoked for every certificate that is known and revoked in the last run of the chain, and not Revoked for one that was revoked in no run of it.", "quantifier": "every history as in C81, every input of every run, every certificate", "why_tests_cant": "Quantifies over histories, inputs and certificates; a single missing revocation is not visible in any run by itself.", "anchors": ["rust-create-cascade/src/main.rs:write_revset_and_delta", "workflow/2-generate_mlbf:main", "moz_kinto_publisher/main.py:publish_crlite", "rust-query-crlite/src/main.rs:query"]}
{"id": "C83", "title": "A certificate that the published coverage covers is known, and answered by its CRL", "statement": "If a certificate of an enrolled issuer is in a log with a timestamp that the coverage written by aggregate-known covers, then the filter builder of the same run finds it in the known files. Hence a client answers Revoked for it when it is on a CRL of its issuer, and Good when it never was.", "quantifier": "every history of ct-fetch and commits in any interleaving with crashes, every run of aggregate-known and aggregate-crls with any schedule and errors, every sequence of filter builds, every certificate", "why_tests_cant": "The claim that coverage implies knowledge joins six programs: ct-fetch, the commit, aggregate-known, aggregate-crls, the filter builder and the client; a certificate that is covered but unknown is silently answered Good.", "anchors": ["go/cmd/ct-fetch/ct-fetch.go:work", "go/storage/certdatabase.go:Commit", "go/cmd/aggregate-known/aggregate-known.go:work", "go/cmd/aggregate-crls/aggregate-crls.go:aggregateCRLWorker", "rust-create-cascade/src/main.rs:main", "rust-query-crlite/src/main.rs:query"]}
{"id": "C84", "title": "Only reviewed content is signed, and it is what the publisher left", "statement": "Whatever publishers, sign-off jobs and editors do in any order, a signed content was asked to be reviewed by a client that had just looked at it, and nothing was changed until the signature. If only the publisher edits, the signed content is what one of its publications left that went on to ask for review: in the channel it published, a single chain of filters; for the intermediates, exactly the local list. Every content that is published successfully is submitted, and every channel is intact in what is signed.", "quantifier": "every number of clients, every interleaving of their requests, every crash of the publisher between any two of them, every history of publications with any failures", "why_tests_cant": "The races between publisher, sign-off job and editors are on a remote server and take any number of steps. (Fails in part: a channel that was cleared when its publication died is signed as empty with the next channel; records published just before a crash are never submitted.)", "anchors": ["moz_kinto_publisher/main.py:request_review_of_collection", "moz_kinto_publisher/main.py:publish_crlite", "moz_kinto_publisher/main.py:publish_intermediates", "moz_kinto_publisher/main.py:main", "containers/scripts/crlite-signoff-tool.py"]}
{"id": "C85", "title": "Filters larger than the limit are not signed automatically", "statement": "The sign-off script signs cert-revocations only for a known instance and only if the filter file is there and not larger than the limit.", "quantifier": "every bucket name, every size of the file or its absence, every limit", "why_tests_cant": "All sizes and limits, and the case that the file is missing. (Fails: a missing file counts as size 0.)", "anchors": ["containers/scripts/crlite-signoff.sh"]}
{"id": "C86", "title": "An issuer's revoked file comes from all CRLs disclosed for it", "statement": "After an uninterrupted run of aggregate-crls an issuer has a revoked file iff the CCADB report discloses a CRL for one of its loaded certificates and every disclosed CRL was fetched, verified and decoded; the file then holds exactly the revocations of these CRLs. Hence a client answers Revoked for a covered certificate that a disclosed CRL lists, and not Revoked if none does.", "quantifier": "every report, every outcome of the downloads, every number of workers and schedule, every certificate", "why_tests_cant": "A shard that is silently left out makes its certificates look good; that shows up only for reports and CRLs that no test contains. (Fails: a disclosed URL of another scheme is dropped with a warning and the file is written from the rest.)", "anchors": ["go/rootprogram/issuers.go:LoadFromDisk", "go/rootprogram/issuers.go:decodeCrls", "go/cmd/aggregate-crls/aggregate-crls.go:downloadCRLs", "go/cmd/aggregate-crls/aggregate-crls.go:aggregateCRLWorker"]}
{"id": "C87", "title": "The audit report names every CRL that could not be used", "statement": "After an uninterrupted run of aggregate-crls the audit report contains, with issuer and URL, a failure for every CRL that could not be used, hence at least one for every issuer without a revoked file; a CRL is reported as verified, undecodable, empty or used exactly if it is, and as old exactly if it was used and its file is older than 336 hours.", "quantifier": "every outcome of every download, every old file, every number of workers and schedule", "why_tests_cant": "The report is the only sign that an issuer was left out; the claim is about all combinations of download, old file and local errors. (Fails: a failed rename or an unmakable directory is not reported.)", "anchors": ["go/cmd/aggregate-crls/crl-auditor.go", "go/cmd/aggregate-crls/aggregate-crls.go:crlFetchWorkerProcessOne", "go/cmd/aggregate-crls/aggregate-crls.go:aggregateCRLWorker", "go/downloader/verifying-downloader.go:DownloadAndVerifyFileSync"]}
{"id": "C88", "title": "Removing expired bins removes nothing else", "statement": "The sweep at the end of a commit removes from the issuers' directories exactly the files whose name says that their time has passed, and directories that held nothing else. A bin of a certificate that has not expired stays whatever fails and wherever the process dies; what the aggregator lists afterwards is what it would have listed before, without the expired bins; a temporary file left by a crash is never taken for a bin.", "quantifier": "every storage directory with any other files in it, every time, every failure of a directory read or removal, every crash point", "why_tests_cant": "The sweep deletes published data; the claim is about all names a directory can hold (day and hour bins, temporary files, foreign files) and all points of failure.", "anchors": ["go/storage/certdatabase.go:removeExpiredSerialsFromStorage", "go/storage/certdatabase.go:GetIssuerAndDatesFromStorage"]}
{"id": "C89", "title": "The stored epoch reads back, and a successful commit leaves matching epochs", "statement": "The epoch that a commit writes is the one that is read later. However the end of a commit goes, the epoch file is readable; if Commit returns without error the epochs of cache and storage match; and the loss of the cache is noticed.", "quantifier": "every epoch, every amount of free disk space, every failure at the end of a commit", "why_tests_cant": "Full disks at exactly this write and lost answers of Redis are not tested. (Fails: the result of Flush is ignored, so an empty epoch file can replace the old one.)", "anchors": ["go/storage/certdatabase.go:getStorageEpoch", "go/storage/certdatabase.go:Commit", "go/storage/certdatabase.go:EnsureCacheIsConsistent"]}
{"id": "C90", "title": "Intermediates are compared exactly and records are what they say", "statement": "Two intermediates have the same comparison text only if key hash, subject and certificate hash agree. An accepted local entry or record is the certificate in it, and its declared hashes are that certificate's; a record that the publisher wrote is read back as the same intermediate; if review is requested, every record declares the hash of the certificate of a local entry and every accepted local entry has such a record.", "quantifier": "every subject text, every certificate, every record and attachment, every collection", "why_tests_cant": "The comparison text joins base85, a subject that an issuer chooses and a Python byte literal with dashes that all three may contain; ambiguity needs a crafted subject. (Fails: an empty derHash is accepted unchecked; an attachment without PEM markers stops the publisher.)", "anchors": ["moz_kinto_publisher/main.py:Intermediate", "moz_kinto_publisher/main.py:publish_intermediates"]}
{"id": "C91", "title": "The storage directory is used by one process at a time", "statement": "Between two operations of one process on the storage directory no other process has one; a process that asks for the lock while nobody has it gets it, and a process that died blocks the others no longer than four hours.", "quantifier": "every number of processes, every schedule and passing of time, every death, every lost answer", "why_tests_cant": "The lock expires by time and is tested only at the start of a commit; that needs runs of hours and several processes. (Fails: after four hours, or with a late DEL, or when Redis loses the key, two processes use the storage, and certificates are lost.)", "anchors": ["go/storage/rediscache.go:AcquireCommitLock", "go/storage/rediscache.go:ReleaseCommitLock", "go/cmd/aggregate-known/aggregate-known.go:waitForCommitLock", "go/cmd/commit/commit.go:work", "go/storage/certdatabase.go:Commit"]}
{"id": "C92", "title": "Published filters answer by the logs and the disclosed CRLs", "statement": "After any history of fetching, committing, generating and publishing, for a client that has downloaded the channel: a certificate that the last run of the chain covers and a CRL disclosed for its issuer lists as revoked is answered Revoked; a certificate that no disclosed CRL listed in any run of the chain is answered Good if a run covers it and NotCovered otherwise.", "quantifier": "every log, every report and set of CRLs, every history of generations and publications stopped anywhere, every certificate", "why_tests_cant": "The statement goes from the CT logs and the CCADB report to the answer of a client, through nine programs and any number of runs; a test fixes the inputs of all of them.", "anchors": ["containers/scripts/crlite-generate.sh", "go/cmd/ct-fetch/ct-fetch.go:main", "go/cmd/aggregate-crls/aggregate-crls.go:main", "go/cmd/aggregate-known/aggregate-known.go:main", "rust-create-cascade/src/main.rs:main", "moz_kinto_publisher/main.py:publish_crlite", "rust-query-crlite/src/main.rs:query"]}
{"id": "C93", "title": "Every known certificate was served by a log", "statement": "A serial in the storage file of a bin, and a serial that the filter builder reads as known, belongs to a certificate that a log has served as an entry, with this issuer named by the entry's chain and an expiry in this hour; and that entry was checked against the log's tree.", "quantifier": "every answer of the logs, every schedule of workers, database thread, commits and aggregators, every error, death and loss of the cache", "why_tests_cant": "Binning by issuer and hour, encoding as cache members, merging with old files and copying into known files happen in different processes; a mix-up would need a certain interleaving to show. (Fails: certificates are stored before the Merkle check, and stay when it fails.)", "anchors": ["go/cmd/ct-fetch/rfc6962.go:downloadCTRangeToChannel", "go/cmd/ct-fetch/rfc6962.go:storeLogEntry", "go/cmd/ct-fetch/tiled.go:storeLogEntry", "go/storage/certdatabase.go:Store", "go/storage/certdatabase.go:moveOneBinOfCachedSerialsToStorage", "go/cmd/aggregate-known/aggregate-known.go:knownWorker"]}
{"id": "C94", "title": "ct-fetch ends when its work is done, and can always end", "statement": "When ct-fetch exits, every enrolled log has been synchronised once and, unless there was a signal, every message sent has been treated by the database thread; it never sends on a closed channel. Messages are treated in the order in which they were sent, none is lost or treated twice. Wherever it is, the program can go on to its end.", "quantifier": "every number of logs and messages, every schedule of main, receiver, downloaders and database thread, a signal at any time", "why_tests_cant": "Wait groups and channels are correct or not over all schedules; the failing ones need a goroutine that is started and not scheduled for a moment. (Fails: the goroutines call Add themselves, so main can pass its Wait before them: exit with nothing done, messages left unsaved, or a panic.)", "anchors": ["go/cmd/ct-fetch/ct-fetch.go:SyncLog", "go/cmd/ct-fetch/ct-fetch.go:Wait", "go/cmd/ct-fetch/ct-fetch.go:insertCTWorker", "go/cmd/ct-fetch/ct-fetch.go:Finalize", "go/cmd/ct-fetch/ct-fetch.go:main"]}
{"id": "C95", "title": "A listing cut short by an error is not taken for a complete one", "statement": "If the listing of bins in storage, of bins or log states in the cache, or of the members of a bin returns, then every request for a part of it succeeded and it contains all that the answers contained, in order. In particular no coverage is published after a listing that failed.", "quantifier": "every division of the listing into pages, every failing request, every schedule of the listing goroutine and its caller", "why_tests_cant": "The error and the closing of the channel happen in one goroutine, the reading in another; a test sees one order of them, and a Redis error in the middle of a scan is not injected. (Fails for the cache: the channel is closed before the error ends the process, so that the commit can replace the coverage file in between.)", "anchors": ["go/storage/rediscache.go:SetToChan", "go/storage/rediscache.go:KeysToChan", "go/storage/rediscache.go:LoadAllLogStates", "go/storage/certdatabase.go:List", "go/storage/certdatabase.go:GetIssuerAndDatesFromCache", "go/storage/certdatabase.go:GetIssuerAndDatesFromStorage"]}
{"id": "C96", "title": "The exit status of the filter builder says whether the run's files are there", "statement": "rust-create-cascade, called as documented for a clubcard, ends with status 0 exactly if every step succeeded, and then the output directory holds filter, stash, revset, delta directory and delta filter of these inputs, and the filter answers correctly for each known certificate; any other outcome is a nonzero status. Without --clobber it changes no file that is there; with --clobber no file of an earlier run is left. A written cascade is exact as well.", "quantifier": "For all inputs, previous revsets, reason sets, filter libraries, contents of the output directory and failures to read, build, check or make directories.", "why_tests_cant": "The paths on which the builder refuses, panics half-way or builds nothing depend on the state of the disk and on the inputs; the tests build filters from good inputs only.", "anchors": ["rust-create-cascade/src/main.rs:713-785", "rust-create-cascade/src/main.rs:819-932", "rust-create-cascade/src/cascade_helper.rs:100-155", "rust-create-cascade/src/clubcard_helper.rs:143-184", "workflow/2-generate_mlbf:46-104"]}
{"id": "C97", "title": "The priority channel tells revoked from unrevoked after any history of generations and publications", "statement": "After any history of generations and publications, stopped anywhere: if the priority channel is a chain and a client has its filters, a certificate known to and revoked for a priority reason in the last run of the chain, valid now and covered, is answered Revoked; one that no run of the chain found revoked for a priority reason and that each covering run knew is answered Good if some run covers it and NotCovered otherwise. The deltas of the channel are made against the revocation set, for all reasons, that the complete run before has uploaded.", "quantifier": "For all histories of generations and publications, inputs of the runs, filter libraries, channels' records and clients' certificates.", "why_tests_cant": "What the client answers depends on all runs since the last full filter and on the reasons the certificate had in each; tests look at one run.", "anchors": ["workflow/2-generate_mlbf:46-104", "containers/scripts/crlite-generate.sh:55-75", "moz_kinto_publisher/main.py:80-91", "rust-create-cascade/src/main.rs:576-627"]}
{"id": "C98", "title": "No answer of a CT log makes its worker panic, and only a lying log ends it", "statement": "Whatever tree head, consistency proof and entries a log answers, in any state, a worker neither indexes out of range nor divides by zero, and the sizes it computes fit into 64 bits. A log that tells the truth, but may fail, ask to wait, or send fewer entries than asked for, never ends its worker; a worker ends only when the proof has the wrong number of hashes or the entries handed over for a range differ from the proof in number or hash. When every answer is a failure or holds an entry, a job needs no more answers than it has entries.", "quantifier": "For all environments, batch sizes above zero, states, tree heads, proofs and sequences of answers (of any length); truthful logs of any content and any way of failing.", "why_tests_cant": "The answers come from servers nobody controls, and one ended worker means that its log is not read again until the process is restarted; tests send a few well-formed answers.", "anchors": ["go/cmd/ct-fetch/rfc6962.go:215-489", "go/cmd/ct-fetch/rfc6962.go:491-688", "go/cmd/ct-fetch/ct-fetch.go:109-167"]}
{"id": "C99", "title": "The generate script hands the right files from program to program", "statement": "In the folder of a complete run the list of issuers, the list of logs, the known and revoked files and the filters are of one execution of crlite-generate.sh in which all programs ended with status 0; the filters were made from these files and from the revocation set of the complete run before. What the two Go programs leave is what the filter builder reads. After any history of executions and publications, stopped anywhere, the answers a client gives from its filters are those of the logs and the disclosed CRLs that the executions met, as in C92, with nothing assumed of what the programs leave for each other.", "quantifier": "For all reports, CRLs, storage contents, orders of directory entries, worker interleavings, signals, file errors and interruptions of each program, all sequences of executions and publications, and all certificates.", "why_tests_cant": "The script is run as a whole only in production; tests of the programs make their input files by hand, so that no test sees a file that one program left for the next after a signal or an error.", "anchors": ["containers/scripts/crlite-generate.sh", "workflow/2-generate_mlbf", "go/cmd/aggregate-crls/aggregate-crls.go:506-582", "go/cmd/aggregate-known/aggregate-known.go:140-210", "rust-create-cascade/src/main.rs:701-884"]}
{"id": "C100", "title": "Serial numbers and reasons are taken octet for octet from certificates and CRLs", "statement": "From every CRL that is encoded as RFC 5280 and DER prescribe, the aggregator records exactly the entries of the list, in order, each with the content octets of its serial number and with its reason, or rejects the whole list when the reason of one entry cannot be had. From every certificate the content octets of its serial number are taken. A certificate is therefore recorded as revoked with a reason exactly when the list has an entry for the number of the certificate with that reason. From arbitrary octets nothing is recorded that does not stand in them as an entry.", "quantifier": "For all lists of entries with any serial numbers, extensions and reasons, all versions, names and times, all certificates, and all octet strings under 2^31 octets.", "why_tests_cant": "The format is recursive with variable-length headers and optional fields; tests use a few small CRLs, in which no length needs more than three octets and hardly any field is absent.", "anchors": ["go/types.go:340-434", "go/cmd/aggregate-crls/aggregate-crls.go:286-302", "go/types.go:100-102"]}
{"id": "C101", "title": "A tiled log is followed to its end and its entries are recorded under the issuers that their chains name", "statement": "Every item that a job on a tiled log sends is the record of the entry at that index of the log, with the issuer whose certificate has the fingerprint named in the chain of the entry. No issuer is asked for again during one SyncLog after it was answered. With a positive batch size no job on a log of proper entries returns an error or dies, so that following the log never stops; the work done is saved at every multiple of the batch size; and on a log that answers, two jobs ten minutes apart claim everything up to its last entry.", "quantifier": "For all logs, batch sizes, starting states, times, answers to requests for issuers (including failures and changes between requests and between jobs), and all sequences of jobs, cut off at any message and restarted.", "why_tests_cant": "The tests of ct-fetch use no tiled log; the cache of issuers outlives jobs, and what stops a log shows only over many jobs and restarts.", "anchors": ["go/cmd/ct-fetch/tiled.go:121-152", "go/cmd/ct-fetch/tiled.go:177-246", "go/cmd/ct-fetch/tiled.go:248-370", "go/cmd/ct-fetch/ct-fetch.go:93-168"]}
{"id": "C102", "title": "One execution of the publisher brings all three collections up to date or stops where it failed", "statement": "If the publisher ends without an exception, every channel in use is a single chain that contains the newest run, no record of a disabled channel is left, other records are untouched, the intermediates are exactly those of the newest run, and the logs are those of Google's list. Everything is then submitted for review. If it ends with an exception, everything that comes later in its order is exactly as before. A dry run changes nothing. A second execution on the same data changes nothing, whatever fails in it. Over any executions of publisher and sign-off job, what is signed is what the publication of some channel left.", "quantifier": "For all channel tables with different names without dashes, contents of the three collections, log lists, runs, enrolled issuers, and all combinations of failing requests.", "why_tests_cant": "The tests of the publisher call the functions one by one with mocks; the order of the calls in `main` and what one failure means for the other collections is tested nowhere.", "anchors": ["moz_kinto_publisher/main.py:1256-1341", "moz_kinto_publisher/main.py:42-92", "moz_kinto_publisher/main.py:213-239", "moz_kinto_publisher/main.py:555-690", "moz_kinto_publisher/main.py:981-1075", "moz_kinto_publisher/main.py:1078-1253"]}
{"id": "C103", "title": "The JSON documents handed between the programs mean one thing and are read as they were written", "statement": "The texts that Go's encoder writes for log states (Redis, `ct-logs.json`) and for enrolled issuers (`enrolled.json`) are JSON by the grammar of RFC 8259: objects with the names and values of the fields, in order, with octets that are not UTF-8 shown as U+FFFD and with dates that by RFC 3339 name the instant of the field. No JSON text has two meanings and no date two instants. Hence every reader that follows the RFCs gets back what was written, but for such octets: the Go programs the same states and issuers, the client identifiers and certificates, the publisher entries with certificate, key hash and subject. From a document that was cut short no value can be read, unless at most the final line feed is missing. Entries with further members, of names not in use, are read as without them.", "quantifier": "For all lists of log states and issuers with any characters in their strings, all 64-bit numbers, all times in the years 0 to 9999 with any nanoseconds and offsets below a day, all readers that follow the two RFCs, and all places where the document may be cut.", "why_tests_cant": "Tests write and read with the same library and a few plain strings; quotes, control characters, `<`, U+2028, invalid octets, large numbers, time zones and partial files are not tried, and the readers in Rust and Python are tested with hand-written files.", "anchors": ["go/rootprogram/issuers.go:42-48", "go/rootprogram/issuers.go:336-340", "go/rootprogram/issuers.go:349-359", "go/types.go:137-146", "go/storage/rediscache.go:227-247", "go/storage/certdatabase.go:315-332", "go/storage/certdatabase.go:586-589", "go/cmd/aggregate-known/aggregate-known.go:196-199", "rust-query-crlite/src/main.rs:98-103", "rust-query-crlite/src/main.rs:138-141", "moz_kinto_publisher/main.py:503-509"]}
{"id": "C104", "title": "The binary files of the Rust programs are read as they were written or not at all", "statement": "`revset.bin` and the client's `crlite.intermediates` hold exactly what was written: the set of keys, the map from names to certificates, whatever the order in which set and map were gone through. The reader accepts only texts that begin with a file of the documented format; no text begins with two of them. If a part of the file is missing, at whatever byte, it is refused. Hence the next run computes its delta against exactly the set of the earlier run, or, if the file is damaged by truncation, writes all known revoked serials, so that no revocation is lost; and the client finds for every certificate the same issuer key as from the downloaded list, or ends with an error.", "quantifier": "For all sets and maps whose lengths fit into 64 bits, all orders of iteration, all places where a file may be cut, all inputs of the next run, all certificates and verification results.", "why_tests_cant": "The tests read back three small sets from whole files; no test reads a truncated file or one with something behind it, and the intermediates file is tested nowhere.", "anchors": ["rust-create-cascade/src/main.rs:576-625", "rust-query-crlite/src/main.rs:338-343", "rust-query-crlite/src/main.rs:401-446"]}
{"id": "C105", "title": "Armoured certificates and CRLs are read as the octets that were armoured", "statement": "Every text in the form of RFC 7468 stands for one label and one octet string, and the Go programs, the client and the publisher read it as these, whatever the lengths of its lines and the kind of line end. `CertificateToPEM` writes this form, so the certificate in `enrolled.json` is the same octets for aggregate-known, for the publisher and for the client. Nothing is decoded that does not stand in the text between matching markers. The octets of a CRL file whose signature is verified and whose revocations are used are the octets whose issuing distribution point is checked; and the client answers for the certificate in the file it was given.", "quantifier": "For all octet strings, labels, line lengths and line ends, all texts with or without blocks, all files, and all DER structures around a hidden block.", "why_tests_cant": "The tests decode a handful of whole files made by openssl; a file in which one reader sees armour and the other does not is not among them.", "anchors": ["go/rootprogram/issuers.go:251-302", "go/rootprogram/issuers.go:350-370", "go/cmd/aggregate-crls/aggregate-crls.go:180-256", "rust-query-crlite/src/main.rs:405-434", "rust-query-crlite/src/main.rs:586-594", "moz_kinto_publisher/main.py:167-174"]}
{"id": "C106", "title": "What has been covered stays covered", "statement": "The range of entries and of timestamps that ct-fetch saves for a log, and that commits publish in the file of log states, never gets smaller; the coverage cutoff of a log never gets earlier, so an entry of the cache that counted as covered still does. Hence a certificate that was covered by a run, and later becomes known as revoked, is answered Revoked by every client that has the filters up to that run.", "quantifier": "For all runs of ct-fetch and of commits on one database in any interleaving, with restarts, restores and failures anywhere; all sequences of runs of the filter generation and all certificates.", "why_tests_cant": "The tests of ct-fetch process one job of one log and look at the final state. Shrinking needs a second job that starts while messages of the first are still queued.", "anchors": ["go/cmd/ct-fetch/ct-fetch.go:68-168", "go/cmd/ct-fetch/ct-fetch.go:198-269", "go/cmd/ct-fetch/rfc6962.go:491-543", "go/cmd/ct-fetch/tiled.go:354-359", "go/storage/certdatabase.go:88-114", "go/storage/certdatabase.go:526-637", "go/types.go:166-189"]}
{"id": "C107", "title": "The exit status of the query program says whether a certificate is known to be revoked", "statement": "rust-query-crlite exits with status 0 if none of the queried certificates is known to be revoked, that is, enrolled, valid and in some loaded filter as revoked, and with status 1 otherwise. This holds for certificates in files, served by hosts, named in a hosts file and fetched from crt.sh, with the database as it is or after an update from any instance.", "quantifier": "For all databases, files, hosts, ports, hosts files, instances and channels, and all answers of the network and the file system.", "why_tests_cant": "The program has no tests of its subcommands. The exit status depends on files with several armoured texts, on hosts with several addresses and on what two different servers publish.", "anchors": ["rust-query-crlite/src/main.rs:117-148", "rust-query-crlite/src/main.rs:287-349", "rust-query-crlite/src/main.rs:480-651", "rust-query-crlite/src/main.rs:653-658", "rust-query-crlite/src/main.rs:719-779"]}
{"id": "C108", "title": "The query program reads from a certificate what the logs and CRLs were recorded under", "statement": "From the octets of a certificate after RFC 5280, rust-query-crlite takes the issuer's name, the serial number, the signed certificate timestamps and the validity as they were written, and from an issuer's certificate its name and its key. The serial number is the one that ct-fetch records from the same certificate or from a precertificate with the same serial number, so that a certificate known and revoked in the runs whose filters are loaded is found by its octets.", "quantifier": "For all certificates of less than 2^64 octets with any extensions, any timestamps and any octets after them, all acceptable contents of the other fields, all databases and all runs.", "why_tests_cant": "The Go and the Rust side read certificates with different parsers and no test gives both the same octets; negative serial numbers, non-minimal lengths, several timestamps and repeated extensions do not occur in the test data.", "anchors": ["rust-query-crlite/src/main.rs:231-243", "rust-query-crlite/src/main.rs:351-381", "rust-query-crlite/src/main.rs:420-427", "rust-query-crlite/src/main.rs:448-458", "rust-query-crlite/src/main.rs:568", "rust-query-crlite/src/main.rs:591", "go/types.go:99-105"]}
{"id": "C109", "title": "What the in-memory cache answers in tests, Redis answers too", "statement": "Whatever sequence of calls is made on the cache, with whatever time between the calls, RedisCache and MockRemoteCache both answer as a cache of sets with expiry times, log states by URL, one lock and an epoch should, and so they say the same, up to the order of lists.", "quantifier": "For all finite sequences of calls of the RemoteCache interface on an initially empty cache, all keys, values, expiry times, tokens, log states and times of the calls.", "why_tests_cant": "The tests of the certificate database run with the in-memory cache only; the tests of the Redis cache need a server and are skipped without one. No test runs the same calls on both.", "anchors": ["go/storage/rediscache.go:74-356", "go/storage/mockcache.go:18-318", "go/storage/types.go:11-32", "go/storage/types.go:70-74"]}
{"id": "C110", "title": "The CCADB report is read as it was written", "statement": "A report is accepted exactly if it is a table of comma-separated values after RFC 4180 with records of equal length and the five columns that are needed; then the issuers and their CRLs are those of its rows, taken by the names of the columns whatever their order. A report that is not whole is refused.", "quantifier": "For all texts, all tables, all choices of quoting, all orders of columns and additional columns, and all places where a report can be cut.", "why_tests_cant": "Tests read a few reports that were written by hand. They cannot try every text, every quoting and every place where a download can end.", "anchors": ["go/rootprogram/issuers.go:92-135", "go/rootprogram/issuers.go:138-227"]}
{"id": "C111", "title": "Running out of Redis memory loses no certificate and passes", "statement": "When Redis has no memory left, no certificate that was stored or cached is lost, published coverage still implies stored serials, and memory becomes available again when the cache is committed to disk. The programs only run on a server that throws nothing away.", "quantifier": "For all memory limits, all measures of the memory that sets and log states take, and all interleavings of insertions, retries, restarts, commits, refusals and evictions.", "why_tests_cant": "Tests use a server with enough memory, and cannot try every moment at which memory becomes full.", "anchors": ["go/storage/rediscache.go:38-101", "go/storage/rediscache.go:274-290", "go/cmd/ct-fetch/ct-fetch.go:198-265", "go/cmd/commit/commit.go:24-57"]}
{"id": "C112", "title": "A setting means what it says, or the program ends", "statement": "A text for a setting means the same in the environment, in the file and on the command line. One that cannot be understood, or with which a program cannot work, ends the program. With every configuration it accepts there is somebody to do the work, a job has a sensible number of entries, and the waiting times are those asked for.", "quantifier": "For all environments, files and command lines, all texts for each setting; for the consequences all stored bins, CRLs, log states and runs of the workers.", "why_tests_cant": "Tests use a few well-formed values.", "anchors": ["go/config/config.go:39-198", "go/cmd/aggregate-known/aggregate-known.go:247-255", "go/cmd/aggregate-crls/aggregate-crls.go:431-451", "go/cmd/ct-fetch/rfc6962.go:251-346", "go/cmd/ct-fetch/tiled.go:301-306", "go/cmd/ct-fetch/ct-fetch.go:419-423"]}
{"id": "C113", "title": "The list of logs decides which logs are followed", "statement": "After every answer of Remote Settings, and once every goroutine has looked at it, ct-fetch follows exactly the logs that the answer lists as enrolled, at the address and with the key, merge delay and kind that it lists.", "quantifier": "For all histories of command-line records, answers of any length, failed requests, jobs and their endings, and restarts.", "why_tests_cant": "Histories of answers are unbounded, and a test sees one or two of them.", "anchors": ["go/cmd/ct-fetch/ct-fetch.go:92-168", "go/cmd/ct-fetch/ct-fetch.go:282-426", "go/cmd/ct-fetch/ct-fetch.go:466-486"]}
{"id": "C114", "title": "The publisher waits for a run or a file, but not for ever", "statement": "A publisher that waits up to a given time for the newest run to be complete, or for a file of a run, ends its wait soon after that time. If what it waits for is in the bucket by then, it gets it, and a local file is only ever replaced by the one in the bucket.", "quantifier": "For all limits, all answers of the bucket at all times, all durations of requests and sleeps, and all contents.", "why_tests_cant": "Waits of minutes, uploads that overlap them, and clocks that are set during them are not tried in tests.", "anchors": ["workflow/__init__.py:100-131", "moz_kinto_publisher/main.py:107-153", "moz_kinto_publisher/main.py:995-1003"]}
{"id": "C115", "title": "The scripts give each program the arguments meant for it, and the switches against uploading hold", "statement": "With DoNotUpload set nothing is uploaded, and with DoNotUpload or KINTO_NOOP set nothing is published, whatever else the environment says. Filters are uploaded only after every step before has succeeded. Each program gets the arguments meant for it: both filters are built from the files that the aggregators were told to write, into the folders in which the publisher looks for them, and both uploads go to the bucket from which the identifier was chosen. Settings that are optional may be left out.", "quantifier": "For all values of the variables of the environment, all identifiers, and all outcomes of the commands.", "why_tests_cant": "Tests run the programs with arguments of their own, not through the scripts of the containers; those need the bucket and the settings server.", "anchors": ["containers/scripts/crlite-generate.sh:1-77", "containers/scripts/crlite-publish.sh:1-18", "containers/scripts/crlite-signoff.sh:1-37", "workflow/0-set_credentials.inc:1-14", "workflow/2-generate_mlbf:14-84", "moz_kinto_publisher/main.py:1253-1281"]}
{"id": "C116", "title": "A duration in a setting means what it says, or the program ends", "statement": "The settings redisTimeout and statsRefreshPeriod are durations: a possibly signed sequence of decimal numbers, each with an optional fraction and a unit. Each such text that fits has one meaning and is taken for that. With any other text, and with a period that is not positive, the program ends before it does anything. The duration asked for is the one waited.", "quantifier": "For all texts, all sequences of numbers and units, and all roundings of fractions.", "why_tests_cant": "Tests give a few durations to programs, none of them odd.", "anchors": ["go/engine/engine.go:19-81", "go/telemetry/telemetry.go:24-36", "go/storage/rediscache.go:38-59", "go/config/config.go:187-188"]}
{"id": "C117", "title": "Two URLs are taken for one CRL only if they ask for the same", "statement": "aggregate-crls compares the URLs of CRLs, and names their files, by a normal form: the query is split into names and values, and written again with the names in order. Two URLs with the same normal form differ at most in the order of different names and in how octets are escaped. Normalising twice is normalising once. Different CRLs of an issuer get different files.", "quantifier": "For all texts of URLs, all queries, and all ways of parsing the part before the query that give the same again.", "why_tests_cant": "Tests have two or three queries; which other queries have the same normal form is a question about all of them.", "anchors": ["go/cmd/aggregate-crls/aggregate-crls.go:51-80", "go/cmd/aggregate-crls/aggregate-crls.go:205-252"]}
{"id": "C118", "title": "The time of a run survives from the clock to the names of records", "statement": "A run's file `timestamp` says the second at which it was written. The publisher reads the same second back, from the file and from the names of the records that it makes. Records sort by name as by time. The date in the name of a run is the date of the day. On a clock that does not go back, later runs have later times, and a second execution of the publisher changes nothing.", "quantifier": "For all seconds from 1970 to the year 9999, all texts that are read, and all sequences of runs.", "why_tests_cant": "Tests use a handful of dates; leap days, ends of months, midnight and the order of all pairs of names are about every second of 8000 years.", "anchors": ["workflow/0-allocate_identifier:23-41", "moz_kinto_publisher/main.py:155-164", "moz_kinto_publisher/main.py:789-791", "moz_kinto_publisher/main.py:815-817", "moz_kinto_publisher/main.py:839-841"]}
{"id": "C119", "title": "A record is for exactly the clients of its channel", "statement": "The publisher gives each record an expression by which clients decide whether they get the record. A client gets a record exactly if its version is 133 or later, beta and nightly versions included, and its preference is the channel of the record; without a preference it gets none. So what a client gets is what the publisher counts as the records of that channel, and after an execution without an error it is a single chain that has the newest run in it.", "quantifier": "For all clients whose version begins with a number, a dot and another number, all preferences, all channels whose names have no quote and no backslash, and all collections.", "why_tests_cant": "Whether the expression means what it should is decided in the browser, whose code is not in the repository; the tests of the publisher never evaluate it, and versions are unbounded.", "anchors": ["moz_kinto_publisher/main.py:731-782", "moz_kinto_publisher/main.py:55-92", "moz_kinto_publisher/main.py:849-851", "moz_kinto_publisher/main.py:989-991"]}
{"id": "C120", "title": "After an update the query program has exactly what the publisher published", "statement": "Take any history of generations, uploads and publications. If Remote Settings serves the records that the publisher left, and an update of the query program succeeds and its filters load, then the filters it loads are exactly those of the runs published in its channel: those of the channel with all reasons for `default`, those with the priority reasons for `compat`. It does not matter what was in its directory before, nor what the server of the attachments sends. So its answers are those of the published chain. The update does succeed if the channel is a chain, all channels are known to it, and the attachments can be downloaded and written.", "quantifier": "For all histories of the bucket and the collection, stopped anywhere, all directories, all downloads, both channels, all certificates.", "why_tests_cant": "The publisher is Python, the generation Go and Rust, the query program Rust; no test runs one on what the other made. Wrong downloads and old files in the directory matter only in combination.", "anchors": ["rust-query-crlite/src/main.rs:150-229", "rust-query-crlite/src/main.rs:297-314", "rust-query-crlite/src/main.rs:683-689", "moz_kinto_publisher/main.py:55-92", "moz_kinto_publisher/main.py:182-212"]}
{"id": "C121", "title": "The exit status of the updated query program says what the published runs say", "statement": "Take any history of generations, uploads and publications whose channel is a chain. Run the query program with `--update` against an instance that serves what the publisher left. If it gets as far as its subcommand, its filters are those of the published chain, and its issuers are those listed for the newest run of that chain, whatever was in its directory before. It then exits with 1 if one of the files it is asked about holds, or one of the hosts presents, a certificate that the newest run knew as revoked, that is valid now and whose issuer is listed for that run. It exits with 0 if each of the files holds, or each of the hosts presents, a certificate that no run of the chain found revoked and that the runs that cover it know.", "quantifier": "For all histories of the bucket and the collection, stopped anywhere, all directories, all downloads, both channels, all certificates, all lists of files and hosts.", "why_tests_cant": "The exit status depends on the generation (Go and Rust), the publisher (Python) and the query program (Rust), run on different machines at different times. The run that the issuers are taken from is guessed from file names: it is right only because of how the publisher names its attachments.", "anchors": ["rust-query-crlite/src/main.rs:100-148", "rust-query-crlite/src/main.rs:150-229", "rust-query-crlite/src/main.rs:293-398", "rust-query-crlite/src/main.rs:719-779", "moz_kinto_publisher/main.py:182-212"]}
{"id": "C122", "title": "From the logs, the report and the CRLs to the exit status of the query program", "statement": "Take any sequence of executions of crlite-generate.sh and runs of the publisher, each stopped anywhere, whose channel with all reasons is a chain, and a query program that is run with `--update` on what they left. It has the issuers of the CCADB report that the newest published execution read. It exits with 1 for a file that holds, or a host that presents, a certificate that a CRL disclosed for its issuer lists as revoked in that execution, if all these CRLs could be used, the certificate was logged as its SCTs promise, has not expired, and is covered; it exits with 0 for files and hosts whose certificates no disclosed CRL listed in any execution of the chain. The same holds of the channel for the priority reasons with CRL entries that give such a reason.", "quantifier": "For all logs, reports, CRLs, interleavings of the workers, histories of the bucket and the collection, directories, downloads, certificates, files and hosts.", "why_tests_cant": "It joins all programs of the repository: ct-fetch, aggregate-crls, aggregate-known, rust-create-cascade, the script, the publisher and the query program. No test runs them on one another's output; each link has assumptions that only the others can discharge.", "anchors": ["containers/scripts/crlite-generate.sh", "workflow/1-upload_data_to_storage", "go/rootprogram/issuers.go:308-347", "go/rootprogram/issuers.go:453-483", "rust-query-crlite/src/main.rs:117-148", "rust-query-crlite/src/main.rs:407-434", "rust-query-crlite/src/main.rs:719-779"]}
{"id": "C123", "title": "What the printed statistics say", "statement": "Whatever ct-fetch and the aggregators print of a period of their statistics is final: each gauge has the value to which it was last set in that period, each counter how often and by how much it was increased in it, counted over the whole run, also after it was printed; no call prints a period twice or out of order. Each call prints exactly the periods with events that are over, except those followed by four more such periods. A measurement is printed if a tick falls into one of the next four periods.", "quantifier": "For all sequences of measurements and ticks in the order of their times, all periods, names and values.", "why_tests_cant": "What is lost depends on when the ticker fires relative to the measurements and on periods without any event; a test would need to wait for hours or replace the clock, and would see one timing.", "anchors": ["go/telemetry/telemetry.go:37-87", "go/engine/engine.go:41-81", "go/cmd/ct-fetch/ct-fetch.go:129", "go/cmd/ct-fetch/ct-fetch.go:171", "go/cmd/ct-fetch/rfc6962.go:287", "go/cmd/ct-fetch/rfc6962.go:662"]}
{"id": "C124", "title": "What get-mozilla-issuers prints and writes", "statement": "If get-mozilla-issuers exits with 0, its output is that of the report it was given, or that `Load` left: to standard output it has printed each issuer that has a certificate in the report, not revoked, the first row with its fingerprint, with a chain to a root of the report, exactly once and no other; to a file it has written one record for each such certificate, from which aggregate-known reads the same issuers. It exits with 0 exactly if a report loads and the output can be opened and closed, never panics, and without a report leaves the output file as it is.", "quantifier": "For all reports, flags, files on disk, downloads, orders of Go's maps, and failures of the output.", "why_tests_cant": "The printed list is made from the first certificate of each entry of a map that was filled in random order; that no entry is empty, and that all certificates of an entry have its issuer, holds for all reports only by an invariant. The program has no test.", "anchors": ["go/cmd/get-mozilla-issuers/get-mozilla-issuers.go:17-49", "go/rootprogram/issuers.go:236-249", "go/rootprogram/issuers.go:308-347", "go/rootprogram/issuers.go:92-227"]}
