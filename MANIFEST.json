{
 "claims": [
  {
   "property": "C01",
   "status": "proved",
   "theorems": [
    "Verif.Props.C01_member_roundtrip",
    "Verif.Props.C01_member_injective"
   ],
   "note": "Round trip of timestamp, log id and serial for every input, and injectivity of the encoding."
  },
  {
   "property": "C02",
   "status": "partial",
   "theorems": [
    "Verif.Props.C02_covered_iff_partial",
    "Verif.Props.C02_exact",
    "Verif.Props.C02_unknown_log_not_covered",
    "Verif.Props.C02_wraparound_fails"
   ],
   "note": "Equivalence with an integer specification when each log is listed once and MMD*1000 is below 2^64; C02_wraparound_fails shows that the bound is needed. C02_exact says without assumptions what is computed: the last state listed for the log decides, and the delay is reduced modulo 2^64."
  },
  {
   "property": "C03",
   "status": "proved",
   "theorems": [
    "Verif.Props.C03_dedup_ascending",
    "Verif.Props.C03_dedup_same_set",
    "Verif.Props.C03_dedup_nodup"
   ],
   "note": "Ascending, same set, no duplicates, for every list."
  },
  {
   "property": "C04",
   "status": "partial",
   "theorems": [
    "Verif.Props.C04_file_roundtrip_partial",
    "Verif.Props.C04_wrong_expiry_refused",
    "Verif.Props.C04_missing_file",
    "Verif.Props.C04_cut_file",
    "Verif.Props.C04_cut_fails",
    "Verif.Props.C04_long_serial_fails"
   ],
   "note": "Round trip for every list of serials whose hex line fits the scanner buffer (64 KiB); longer lines are unreadable (C04_long_serial_fails). Wrong expiry refused; missing file reads as no serials. What a file cut behind its first line reads as: C04_cut_file; a cut can give another serial without an error (C04_cut_fails)."
  },
  {
   "property": "C05",
   "status": "proved",
   "theorems": [
    "Verif.Props.C05_known_file_roundtrip",
    "Verif.Props.C05_negative_expiry_fails",
    "Verif.Props.C05_expiry_limits"
   ],
   "note": "Go writer to Rust reader, for every list of blocks with 0 <= expiry < 2^64; C05_negative_expiry_fails shows a pre-1970 expiry is not readable."
  },
  {
   "property": "C06",
   "status": "proved",
   "theorems": [
    "Verif.Props.C06_revoked_file_roundtrip",
    "Verif.Props.C06_revoked_serial_iff"
   ],
   "note": "Go writer to Rust reader for every list of serial/reason pairs and every reason filter."
  },
  {
   "property": "C07",
   "status": "proved",
   "theorems": [
    "Verif.Props.C07_reason_iff",
    "Verif.Props.C07_reason_byte"
   ],
   "note": "A reason is extracted iff there is no reason extension (0) or exactly one that encodes it; the byte stored is the reason itself."
  },
  {
   "property": "C08",
   "status": "proved",
   "theorems": [
    "Verif.Props.C08_hex_roundtrip",
    "Verif.Props.C08_hex_injective",
    "Verif.Props.C08_hex_exact",
    "Verif.Props.C08_json_roundtrip",
    "Verif.Props.C08_json_exact",
    "Verif.Props.C08_json_injective"
   ],
   "note": "Hex and JSON round trips and injectivity."
  },
  {
   "property": "C09",
   "status": "proved",
   "theorems": [
    "Verif.Props.C09_bin_name_roundtrip",
    "Verif.Props.C09_bin_name_injective",
    "Verif.Props.C09_handle_injective",
    "Verif.Props.C09_memo_correct"
   ],
   "note": "Names parse back and are unique for every date and issuer; the lookup handle and the memo table are unique for 32-byte digests."
  },
  {
   "property": "C10",
   "status": "proved",
   "theorems": [
    "Verif.Props.C10_calendar",
    "Verif.Props.C10_hour_roundtrip",
    "Verif.Props.C10_day_roundtrip",
    "Verif.Props.C10_same_bin_iff",
    "Verif.Props.C10_accepted_names"
   ],
   "note": "Calendar conversion proved against an independent next-day specification; identifiers round-trip for years 0 to 9999 and are equal exactly for the same hour."
  },
  {
   "property": "C11",
   "status": "proved",
   "theorems": [
    "Verif.Props.C11_hour_bin_safe",
    "Verif.Props.C11_hour_bin_live",
    "Verif.Props.C11_day_bin_safe",
    "Verif.Props.C11_unparsed_fails"
   ],
   "note": "Hour and legacy day bins; the guard that callers use the parsed date is shown to matter (C11_unparsed_fails)."
  },
  {
   "property": "C12",
   "status": "partial",
   "theorems": [
    "Verif.Props.C12_cache_expiry_fails",
    "Verif.Props.C12_cache_expiry_partial"
   ],
   "note": "False as stated (C12_cache_expiry_fails): the cache expiry is NotAfter rounded down to the hour. Proved: less than one hour early, never late, exact on whole hours."
  },
  {
   "property": "C13",
   "status": "proved",
   "theorems": [
    "Verif.Props.C13_key_injective",
    "Verif.Props.C13_issuer_name_roundtrip",
    "Verif.Props.C13_issuer_name_injective"
   ],
   "note": "Filter keys are injective in (issuer hash, serial); issuer names decode back to the hash."
  },
  {
   "property": "C14",
   "status": "proved",
   "theorems": [
    "Verif.Props.C14_load_after_saves",
    "Verif.Props.C14_other_logs_untouched",
    "Verif.Props.C14_get_log_state",
    "Verif.Props.C14_redis_error_fails"
   ],
   "note": "For every history of saves, when Redis answers; C14_redis_error_fails shows that a Redis error makes GetLogState return a brand-new state."
  },
  {
   "property": "C15",
   "status": "proved",
   "theorems": [
    "Verif.Props.C15_split_is_rfc",
    "Verif.Props.C15_verifier_accepts_iff"
   ],
   "note": "For every hash with 32-byte output, every range and every leaf sequence: no panic, and acceptance iff count and RFC 6962 tree hash match."
  },
  {
   "property": "C16",
   "status": "proved",
   "theorems": [
    "Verif.Props.C16_two_accepted_collide",
    "Verif.Props.C16_hashed_determines"
   ],
   "note": "The collision is among the byte strings actually hashed for the two trees, so the statement is not a counting triviality."
  },
  {
   "property": "C17",
   "status": "proved",
   "theorems": [
    "Verif.Props.C17_subtrees_are_rfc",
    "Verif.Props.C17_error_iff",
    "Verif.Props.C17_terminates"
   ],
   "note": "Equality with RFC 6962 PROOF as index ranges, exact error condition, termination for all sizes."
  },
  {
   "property": "C18",
   "status": "proved",
   "theorems": [
    "Verif.Props.C18_job_tiles_up",
    "Verif.Props.C18_job_tiles_down",
    "Verif.Props.C18_job_roots",
    "Verif.Props.C18_job_exists",
    "Verif.Props.C18_small_tree_fails"
   ],
   "note": "Adjacent, exact, ascending or descending; queue never empty; guard for trees of at most 3 entries shown necessary."
  },
  {
   "property": "C19",
   "status": "proved",
   "theorems": [
    "Verif.Props.C19_honest_log_accepted",
    "Verif.Props.C19_accepted_is_true"
   ],
   "note": "Honest proof and entries always accepted; conversely an accepted download against true roots is the true one unless the hash collides."
  },
  {
   "property": "C20",
   "status": "partial",
   "theorems": [
    "Verif.Props.C20_job_range_partial",
    "Verif.Props.C20_shrunk_log_fails",
    "Verif.Props.C20_job_priority",
    "Verif.Props.C20_tiled_priority",
    "Verif.Props.C20_tiled_shrunk_claims_nothing",
    "Verif.Props.C20_shrunk_log_claims_nothing"
   ],
   "note": "Range in the log, at most batch long, adjacent to the claimed range; priorities of the tasks. Missing: a log that shrank, for which C20_shrunk_log_fails gives an empty range (nothing is claimed because of it), and indices within a batch of 2^64."
  },
  {
   "property": "C21",
   "status": "partial",
   "theorems": [
    "Verif.Props.C21_job",
    "Verif.Props.C21_claimed_was_processed",
    "Verif.Props.C21_claimed_is_log_content",
    "Verif.Props.C21_tiled_partial"
   ],
   "note": "RFC 6962 workers: every history of jobs, answers, cut-offs and stale restarts, plus contents under true proofs; a log first seen with exactly one entry is excluded (see C25). Tiled workers: all entries except entry 0."
  },
  {
   "property": "C22",
   "status": "proved",
   "theorems": [
    "Verif.Props.C22_state_after_certificates",
    "Verif.Props.C22_all_delivered"
   ],
   "note": "Every interleaving of certificates, states, failures and retries, cut at any point: a saved state comes after every certificate sent before it."
  },
  {
   "property": "C23",
   "status": "partial",
   "theorems": [
    "Verif.Props.C23_saved_states_are_true",
    "Verif.Props.C23_tiled_partial"
   ],
   "note": "All interleavings of workers, database thread, failures and crashes. RFC 6962 logs: every entry of every saved range was stored or skipped, and the entries are in the signed tree. Tiled logs: the same except entry 0, which is never fetched (C25)."
  },
  {
   "property": "C24",
   "status": "partial",
   "theorems": [
    "Verif.Props.C24_before_cutoff_partial",
    "Verif.Props.C24_complete_log_partial",
    "Verif.Props.C24_boundary_fails",
    "Verif.Props.C24_lower_edge_fails"
   ],
   "note": "The literal statement fails at the boundary (C24_boundary_fails) and at the lower end of a range that does not begin at 0 (C24_lower_edge_fails). Proved: strictly before the cutoff and at or above the smallest claimed timestamp plus the merge delay, and for complete logs everything strictly before the cutoff."
  },
  {
   "property": "C25",
   "status": "partial",
   "theorems": [
    "Verif.Props.C25_entry_zero_partial",
    "Verif.Props.C25_one_entry_fails",
    "Verif.Props.C25_one_entry_never_repaired",
    "Verif.Props.C25_tiled_fails"
   ],
   "note": "Fails for tiled logs (entry 0 is never fetched) and for a log first seen with one entry; proved for all other RFC 6962 histories."
  },
  {
   "property": "C26",
   "status": "partial",
   "theorems": [
    "Verif.Props.C26_timestamps_bracket",
    "Verif.Props.C26_minimum_fails"
   ],
   "note": "Bracketing and attained maximum proved for all histories; the recorded minimum fails (index stored as timestamp)."
  },
  {
   "property": "C27",
   "status": "proved",
   "theorems": [
    "Verif.Props.C27_stored_iff",
    "Verif.Props.C27_skipped_iff",
    "Verif.Props.C27_tiled_stored_iff",
    "Verif.Props.C27_tiled_skipped_iff",
    "Verif.Props.C27_processed_entries"
   ],
   "note": "Exact iff for stored and for skipped, both kinds of log, and for the entries of all histories."
  },
  {
   "property": "C28",
   "status": "partial",
   "theorems": [
    "Verif.Props.C28_one_start_per_enrolment",
    "Verif.Props.C28_workers_partial",
    "Verif.Props.C28_two_workers_fails"
   ],
   "note": "Fails when a log is unenrolled and enrolled again while its worker still runs (C28_two_workers_fails). Proved: one start per enrolment, and one worker in every history without such an overlap."
  },
  {
   "property": "C29",
   "status": "partial",
   "theorems": [
    "Verif.Props.C29_job_extends_partial",
    "Verif.Props.C29_whole_log_partial",
    "Verif.Props.C29_rounds_exist",
    "Verif.Props.C29_stuck_fails",
    "Verif.Props.C29_stuck_reached_fails"
   ],
   "note": "Fails for a range that begins at entry 1, 2 or 3: no job ever succeeds again (C29_stuck_fails, reached in C29_stuck_reached_fails). Proved for batches of at least 4 entries and logs whose first job does not begin at 1, 2 or 3: every job extends the range, and as many jobs as entries claim the whole log; such runs exist."
  },
  {
   "property": "C30",
   "status": "partial",
   "theorems": [
    "Verif.Props.C30_status_partial",
    "Verif.Props.C30_silent_worker_fails",
    "Verif.Props.C30_huge_delay_fails"
   ],
   "note": "Exact characterisation of the answer for delays below 2^32 s. A worker that never reported is not noticed (C30_silent_worker_fails); a polling delay of 2^33 s overflows (C30_huge_delay_fails)."
  },
  {
   "property": "C31",
   "status": "partial",
   "theorems": [
    "Verif.Props.C31_nothing_lost_partial",
    "Verif.Props.C31_start",
    "Verif.Props.C31_duplicate_bin_fails"
   ],
   "note": "The commit with one goroutine per bin, ct-fetch, time, Redis expiry and restarts as an interleaving state machine; any history may stop anywhere. Nothing that was stored or cached is lost while the bin's hour has not begun. Not covered: a bin returned twice by SCAN, for which C31_duplicate_bin_fails loses a certificate, and serials of 32 KiB or more."
  },
  {
   "property": "C32",
   "status": "partial",
   "theorems": [
    "Verif.Props.C32_published_is_stored_partial",
    "Verif.Props.C32_duplicate_bin_fails",
    "Verif.Props.C32_cache_loss_fails"
   ],
   "note": "Over every history without loss of Redis data or a bin scanned twice, published coverage of a value inserted before the states were read implies its serial is in the bin's file. C32_duplicate_bin_fails and C32_cache_loss_fails show that these are needed; after a data loss the restored states claim entries that were only cached."
  },
  {
   "property": "C33",
   "status": "proved",
   "theorems": [
    "Verif.Props.C33_refused",
    "Verif.Props.C33_not_refused",
    "Verif.Props.C33_idle_inert",
    "Verif.Props.C33_unreadable_states"
   ],
   "note": "Refusal for each of the reasons leaves the whole state; commit steps without a started commit and steps before the log states are read change nothing; nothing else refuses a commit."
  },
  {
   "property": "C34",
   "status": "partial",
   "theorems": [
    "Verif.Props.C34_history",
    "Verif.Props.C34_history_partial",
    "Verif.Props.C34_counted_again_fails",
    "Verif.Props.C34_only_interruption",
    "Verif.Props.C34_reset_detected_partial",
    "Verif.Props.C34_first_reset_fails",
    "Verif.Props.C34_disagreement_repaired",
    "Verif.Props.C34_storage_loss_detected_partial",
    "Verif.Props.C34_storage_loss_fails"
   ],
   "note": "Histories without data loss: the check passes or the cache is ahead by two or more; by exactly two, and only after an interruption between the two epoch updates, if no INCR is carried out a second time because its answer was lost (otherwise C34_counted_again_fails: the check fails after a commit that completed). Commits are then refused and a restart repairs it. Data loss is noticed from the second commit on; C34_first_reset_fails and C34_storage_loss_fails are the exceptions, the latter publishing coverage without the certificate."
  },
  {
   "property": "C35",
   "status": "partial",
   "theorems": [
    "Verif.Props.C35_uncovered_stay_partial",
    "Verif.Props.C35_only_covered_stored_partial",
    "Verif.Props.C35_uncovered_stay",
    "Verif.Props.C35_only_covered_stored"
   ],
   "note": "Uncovered values stay cached until the bin's hour begins in every history without loss of Redis' data, also if a scan returns a bin twice (C35_uncovered_stay), and storage only ever receives serials of inserted values that the states of some commit cover (C35_only_covered_stored); the two _partial theorems say the same for a database with a running commit. That covered values are moved is C32; it fails if a scan returns a bin twice (C31_duplicate_bin_fails: the value is then in neither place), so the full statement does not hold."
  },
  {
   "property": "C36",
   "status": "proved",
   "theorems": [
    "Verif.Props.C36_moved_once",
    "Verif.Props.C36_removed_once"
   ],
   "note": "Both loops, including the batch size that shrinks in the loop: concatenated batches are the list and no batch is empty or too large, for every batch size of at least 1."
  },
  {
   "property": "C37",
   "status": "partial",
   "theorems": [
    "Verif.Props.C37_one_holder",
    "Verif.Props.C37_exclusive_partial",
    "Verif.Props.C37_not_holder_cannot_release",
    "Verif.Props.C37_expiry_fails",
    "Verif.Props.C37_release_race_fails"
   ],
   "note": "At most one process passes HasCommitLock in every history. Without expiry at most one process has the lock unreleased. C37_expiry_fails and C37_release_race_fails show what expiry breaks. Tokens are taken to be distinct."
  },
  {
   "property": "C38",
   "status": "proved",
   "theorems": [
    "Verif.Props.C38_restored",
    "Verif.Props.C38_each_log",
    "Verif.Props.C38_refused",
    "Verif.Props.C38_interrupted",
    "Verif.Props.C38_not_needed"
   ],
   "note": "Restore as a sequence of single writes that may stop after any of them: success, refusal, interruption and repetition."
  },
  {
   "property": "C39",
   "status": "proved",
   "theorems": [
    "Verif.Props.C39_migrate_keeps",
    "Verif.Props.C39_error_no_change",
    "Verif.Props.C39_other_keys_untouched",
    "Verif.Props.C39_crash_then_rerun",
    "Verif.Props.C39_idempotent",
    "Verif.Props.C39_misfiled_fails"
   ],
   "note": "Under the invariant that a state is filed under its own URL (C39_misfiled_fails shows it is needed): newest state kept, other keys untouched, errors change nothing, idempotent, and safe at every crash point."
  },
  {
   "property": "C40",
   "status": "proved",
   "theorems": [
    "Verif.Props.C40_listing_exact",
    "Verif.Props.C40_listing_counts",
    "Verif.Props.C40_listing_fails_iff",
    "Verif.Props.C40_stored_bin_listed",
    "Verif.Props.C40_listed_bin_exists"
   ],
   "note": "Exact listing, once per issuer, multiplicities kept, failure exactly on malformed names; for the cache and the storage directory."
  },
  {
   "property": "C41",
   "status": "partial",
   "theorems": [
    "Verif.Props.C41_published_partial"
   ],
   "note": "One machine for ct-fetch and commit on the same database, any interleaving, restarts and failures anywhere: an entry strictly before a published cutoff was downloaded, verified, and its certificate is in storage until its bin expires. Missing: timestamp equal to the cutoff, entry 0 of tiled logs, loss of Redis data; each refuted elsewhere."
  },
  {
   "property": "C42",
   "status": "partial",
   "theorems": [
    "Verif.Props.C42_inserts_partial",
    "Verif.Props.C42_one_removal_partial",
    "Verif.Props.C42_remove_fails"
   ],
   "note": "Membership after any inserts, and the list after one removal. C42_remove_fails: a removal breaks the order, after which membership, removal and insertion are wrong."
  },
  {
   "property": "C43",
   "status": "partial",
   "theorems": [
    "Verif.Props.C43_short_write_partial",
    "Verif.Props.C43_noticed",
    "Verif.Props.C43_last_flush_fails"
   ],
   "note": "A disk that accepts any number of characters: exactly which failures are noticed. C43_last_flush_fails: the error of the deferred Flush is ignored, so an empty file can replace a good one."
  },
  {
   "property": "C44",
   "status": "partial",
   "theorems": [
    "Verif.Props.C44_complete_partial",
    "Verif.Props.C44_only_last_bin_cut",
    "Verif.Props.C44_every_error",
    "Verif.Props.C44_errors_reported",
    "Verif.Props.C44_no_other_files",
    "Verif.Props.C44_last_flush_fails",
    "Verif.Props.C44_no_workers_fails"
   ],
   "note": "State machine over workers, queue, clock and errors. On success every known file, read as the filter builder reads it, has all serials of unexpired bins and nothing else; other files untouched; noticed errors and signals prevent success. Missing: unnoticed last-flush failure and zero workers, both refuted; even then at most the last bin of a file is cut (C44_only_last_bin_cut)."
  },
  {
   "property": "C45",
   "status": "proved",
   "theorems": [
    "Verif.Props.C45_no_overflow",
    "Verif.Props.C45_needs_dates"
   ],
   "note": "For every storage directory listing and enrolment; C45_needs_dates shows the listing property it rests on is needed."
  },
  {
   "property": "C46",
   "status": "partial",
   "theorems": [
    "Verif.Props.C46_file_iff_partial",
    "Verif.Props.C46_read_back_partial",
    "Verif.Props.C46_no_partial_file",
    "Verif.Props.C46_no_other_files",
    "Verif.Props.C46_from_map_partial",
    "Verif.Props.C46_enrolled_last_partial",
    "Verif.Props.C46_enrolled_anyway_fails",
    "Verif.Props.C46_interrupted_fails",
    "Verif.Props.C46_last_flush_fails",
    "Verif.Props.C46_no_workers_fails"
   ],
   "note": "State machine over any number of workers with arbitrary schedules and write failures: on a normal end, the file of an issuer exists iff every URL parsed, was fetched and its CRL loaded, and it holds all their entries, read back as the filter builder reads it; never a file from some of the CRLs. Missing: last-flush failure, zero workers, interruption (exit 0 with missing files) and enrolment despite a missing file; each refuted."
  },
  {
   "property": "C47",
   "status": "partial",
   "theorems": [
    "Verif.Props.C47_check_iff",
    "Verif.Props.C47_other_partition_rejected",
    "Verif.Props.C47_reported",
    "Verif.Props.C47_used_anyway_fails"
   ],
   "note": "Exact decision of the distribution point check; a mismatch is reported in the audit. Refuted: the CRL is used anyway (C47_used_anyway_fails)."
  },
  {
   "property": "C48",
   "status": "proved",
   "theorems": [
    "Verif.Props.C48_only_verified",
    "Verif.Props.C48_result"
   ],
   "note": "At every point of a verified download, crash included, the final path holds its old content or verified content."
  },
  {
   "property": "C49",
   "status": "partial",
   "theorems": [
    "Verif.Props.C49_resume",
    "Verif.Props.C49_prefix",
    "Verif.Props.C49_stale_file_fails"
   ],
   "note": "If the local file is absent or a prefix of the server's content, a successful download gives exactly that content, for any pattern of broken connections and answers; refuted for a stale local file of the same length or shorter."
  },
  {
   "property": "C50",
   "status": "proved",
   "theorems": [
    "Verif.Props.C50_bounded",
    "Verif.Props.C50_error_iff",
    "Verif.Props.C50_ok_iff",
    "Verif.Props.C50_cancelled_iff"
   ],
   "note": "Number of attempts, exact conditions for success, error and cancellation."
  },
  {
   "property": "C51",
   "status": "proved",
   "theorems": [
    "Verif.Props.C51_union",
    "Verif.Props.C51_keys",
    "Verif.Props.C51_laws"
   ],
   "note": "Union, key set, commutative, associative, idempotent, as maps to sets."
  },
  {
   "property": "C52",
   "status": "partial",
   "theorems": [
    "Verif.Props.C52_exact_partial",
    "Verif.Props.C52_comma_fails",
    "Verif.Props.C52_union",
    "Verif.Props.C52_partition_order_fails"
   ],
   "note": "Exact for arrays of URLs without commas, any white space; union over several certificates. Refuted: URLs with commas; the partition flag depends on map iteration order."
  },
  {
   "property": "C53",
   "status": "partial",
   "theorems": [
    "Verif.Props.C53_round_trip",
    "Verif.Props.C53_saving",
    "Verif.Props.C53_encode_error_fails"
   ],
   "note": "Save then load gives back the same issuers, certificates and flags, for any insertion history. Refuted: a JSON write error is swallowed (C53_encode_error_fails)."
  },
  {
   "property": "C54",
   "status": "proved",
   "theorems": [
    "Verif.Props.C54_parsed",
    "Verif.Props.C54_string",
    "Verif.Props.C54_batch_size"
   ],
   "note": "Exact decision for parsed values, texts and the batch size; the parsers are parameters."
  },
  {
   "property": "C55",
   "status": "partial",
   "theorems": [
    "Verif.Props.C55_distinct",
    "Verif.Props.C55_legal",
    "Verif.Props.C55_name",
    "Verif.Props.C55_no_separator",
    "Verif.Props.C55_tmp_distinct",
    "Verif.Props.C55_too_long_fails"
   ],
   "note": "Distinct names for URLs with distinct digests, only legal characters, no separators, never clashes with temporary files. Refuted: names may exceed a file system's limit of 255 bytes."
  },
  {
   "property": "C56",
   "status": "proved",
   "theorems": [
    "Verif.Props.C56_written_filter",
    "Verif.Props.C56_included",
    "Verif.Props.C56_status",
    "Verif.Props.C56_excluded",
    "Verif.Props.C56_written_filter_exact"
   ],
   "note": "Keys included, excluded and checked are exactly those of the known certificates with their status, for any input; a written filter answers exactly on every known certificate whatever the filter library does. Unbounded in issuers, bins, serials and reasons."
  },
  {
   "property": "C57",
   "status": "partial",
   "theorems": [
    "Verif.Props.C57_counts",
    "Verif.Props.C57_universe",
    "Verif.Props.C57_repeats_fails",
    "Verif.Props.C57_histogram_fails"
   ],
   "note": "The revoked and unrevoked counts are exactly the numbers of keys included and excluded, and the universe announced for a clubcard is the number of keys it gets (C57_universe). Refuted for the reason histogram and, as a number of certificates, for that universe (C57_repeats_fails): both count a serial once per expiry bin it occurs in."
  },
  {
   "property": "C58",
   "status": "proved",
   "theorems": [
    "Verif.Props.C58_delta"
   ],
   "note": "For any previous set, readable or not: revocation set, delta directory, issuers with a file and reasons are exact."
  },
  {
   "property": "C59",
   "status": "proved",
   "theorems": [
    "Verif.Props.C59_complete",
    "Verif.Props.C59_sound",
    "Verif.Props.C59_delta_filter",
    "Verif.Props.C59_filters"
   ],
   "note": "By induction over any number of runs with arbitrarily changing inputs, for the keys and for the filters written, whatever the filter library does."
  },
  {
   "property": "C60",
   "status": "partial",
   "theorems": [
    "Verif.Props.C60_complete_partial",
    "Verif.Props.C60_reason_change_fails"
   ],
   "note": "Proved if no certificate's reason changes into the priority set. Refuted otherwise: the delta is taken against the all-reasons set of the previous run."
  },
  {
   "property": "C61",
   "status": "proved",
   "theorems": [
    "Verif.Props.C61_skip_iff",
    "Verif.Props.C61_nested",
    "Verif.Props.C61_unknown_is_unspecified"
   ],
   "note": "Reason sets as predicates; nesting; unknown codes count as unspecified."
  },
  {
   "property": "C62",
   "status": "partial",
   "theorems": [
    "Verif.Props.C62_stash",
    "Verif.Props.C62_run",
    "Verif.Props.C62_long_serial_fails"
   ],
   "note": "Proved for serials under 256 bytes and fewer than 2^32 per issuer, any iteration order, against a decoder written from the grammar in the comment. Refuted for a serial of 256 bytes."
  },
  {
   "property": "C63",
   "status": "proved",
   "theorems": [
    "Verif.Props.C63_revoked_iff",
    "Verif.Props.C63_answers",
    "Verif.Props.C63_order",
    "Verif.Props.C63_monotone",
    "Verif.Props.C63_enrolled"
   ],
   "note": "Revoked iff, all other answers, independence of order and number, monotonicity; and which issuers count as enrolled, from the records of the enrolled list."
  },
  {
   "property": "C64",
   "status": "partial",
   "theorems": [
    "Verif.Props.C64_exact_partial",
    "Verif.Props.C64_one_full",
    "Verif.Props.C64_loaded_partial",
    "Verif.Props.C64_remove_fails",
    "Verif.Props.C64_duplicate_fails",
    "Verif.Props.C64_escape_fails"
   ],
   "note": "Proved from any prior directory if removals succeed and equal names have equal digests, down to the filters loaded; zero or several full filters fail and change nothing. Refuted for ignored removal errors, two records with one file name, and file names with slashes."
  },
  {
   "property": "C65",
   "status": "partial",
   "theorems": [
    "Verif.Props.C65_latest",
    "Verif.Props.C65_order",
    "Verif.Props.C65_names",
    "Verif.Props.C65_stray_fails"
   ],
   "note": "Greatest by date and revision as numbers, independent of the listing order. Refuted for stray files, which count though they are no filters."
  },
  {
   "property": "C66",
   "status": "proved",
   "theorems": [
    "Verif.Props.C66_accepts_iff"
   ],
   "note": "verifyRecords accepts iff empty or a single chain, for arbitrary records (cycles, branches, missing fields, repeated identifiers)."
  },
  {
   "property": "C67",
   "status": "proved",
   "theorems": [
    "Verif.Props.C67_full_replaces",
    "Verif.Props.C67_last_is_tip",
    "Verif.Props.C67_tidy_kept",
    "Verif.Props.C67_deltas_extend_chain",
    "Verif.Props.C67_accepted_after",
    "Verif.Props.C67_interrupted",
    "Verif.Props.C67_nothing_to_publish",
    "Verif.Props.C67_noop",
    "Verif.Props.C67_other_channels",
    "Verif.Props.C67_history",
    "Verif.Props.C67_succeeds",
    "Verif.Props.C67_malformed_blocks"
   ],
   "note": "By an invariant (each complete record belongs to a later run than its parent) kept under every failure; the record last by name is then always the tip, whatever the names. C67_history is over any sequence of publications with crashes. Assumes Kinto gives fresh identifiers, channel names without dash (true of the configured ones) and different runs. C67_malformed_blocks: a record without `incremental`, not written by the publisher, blocks the channel."
  },
  {
   "property": "C68",
   "status": "proved",
   "theorems": [
    "Verif.Props.C68_deltas",
    "Verif.Props.C68_full_newest",
    "Verif.Props.C68_deltas_when",
    "Verif.Props.C68_decides",
    "Verif.Props.C68_not_ready_full"
   ],
   "note": "C68_deltas: exactly the runs after the tip; C68_full_newest: else the newest; C68_deltas_when: the converse; C67_full_replaces: the full filter replaces all records."
  },
  {
   "property": "C69",
   "status": "partial",
   "theorems": [
    "Verif.Props.C69_all_old_partial",
    "Verif.Props.C69_oldest_partial",
    "Verif.Props.C69_min_fails"
   ],
   "note": "C69_min_fails: the oldest run is found by text order, so with ten runs on one day the limit is missed. Partial: holds if text order agrees with time order among the published runs, or if all published runs have reached the limit. As an alternative outcome the publisher may stop with an error (missing timestamp, unparsable run)."
  },
  {
   "property": "C70",
   "status": "proved",
   "theorems": [
    "Verif.Props.C70_review",
    "Verif.Props.C70_kept",
    "Verif.Props.C70_converges",
    "Verif.Props.C70_noop"
   ],
   "note": "Interference by other clients between the two reads is part of the model: review is requested only after a second read that agrees with the local set."
  },
  {
   "property": "C71",
   "status": "partial",
   "theorems": [
    "Verif.Props.C71_end_reached",
    "Verif.Props.C71_noop",
    "Verif.Props.C71_refused",
    "Verif.Props.C71_enrolment",
    "Verif.Props.C71_deleted_only_gone",
    "Verif.Props.C71_converges",
    "Verif.Props.C71_upstream",
    "Verif.Props.C71_new_log_enrolled_fails"
   ],
   "note": "C71_new_log_enrolled_fails: new logs are created with crlite_enrolled set to true, although the comment in the code says that a reviewer enrols them. All other parts are proved: enrolment of known logs is kept, only logs gone upstream are deleted, dry runs change nothing, duplicates and wrong identifiers are refused, the end is reached exactly if nothing is refused (C71_end_reached), and with no failures the collection ends up equal to the upstream list."
  },
  {
   "property": "C72",
   "status": "partial",
   "theorems": [
    "Verif.Props.C72_listed_partial",
    "Verif.Props.C72_fresh_partial",
    "Verif.Props.C72_history_partial",
    "Verif.Props.C72_clock_back_fails",
    "Verif.Props.C72_million_fails",
    "Verif.Props.C72_not_uploaded_fails",
    "Verif.Props.C72_prefix_fails"
   ],
   "note": "Holds for up to a million runs on days that never go back, each of which uploads something. C72_clock_back_fails: an identifier in use is handed out again after the clock went back. C72_million_fails: numbers from 1000000 on sort before 999999. C72_not_uploaded_fails: a run that dies before its first upload leaves its identifier in use or blocks the day. C72_prefix_fails: directory names that only begin like a run count as runs."
  },
  {
   "property": "C73",
   "status": "proved",
   "theorems": [
    "Verif.Props.C73_completed_last",
    "Verif.Props.C73_completed_written",
    "Verif.Props.C73_no_filter",
    "Verif.Props.C73_valid",
    "Verif.Props.C73_channels_valid",
    "Verif.Props.C73_priority_missing_fails"
   ],
   "note": "For both upload scripts in sequence and every crash point. C73_priority_missing_fails records that a run can be marked complete without a priority filter if that folder was never made; the publisher's validity check notices it."
  },
  {
   "property": "C74",
   "status": "partial",
   "theorems": [
    "Verif.Props.C74_revoked_partial",
    "Verif.Props.C74_not_revoked",
    "Verif.Props.C74_known_elsewhere_fails"
   ],
   "note": "Composition of C56, C58, C59 and C63 over any sequence of runs. Not Revoked for never-revoked certificates is proved; Revoked is proved provided every run that knew the certificate also covered one of its SCTs. C74_known_elsewhere_fails: a certificate first known from a log outside its SCTs is put into a delta that does not cover it and is then answered Good by every later delta, until the next full filter. The clubcard library (coverage, enrolment) is modelled from its callers."
  },
  {
   "property": "C75",
   "status": "partial",
   "theorems": [
    "Verif.Props.C75_accepted_leaves",
    "Verif.Props.C75_x509_partial",
    "Verif.Props.C75_x509_determined_partial",
    "Verif.Props.C75_precert_fails",
    "Verif.Props.C75_issuer_fails",
    "Verif.Props.C75_verifier_blind",
    "Verif.Props.C75_tiled_x509_partial",
    "Verif.Props.C75_tiled_precert_fails"
   ],
   "note": "Fails: C75_precert_fails and C75_tiled_precert_fails (the precertificate comes from data that the leaf does not cover, so a server can have any certificate stored), C75_issuer_fails (likewise the issuer, for all entries). Holds for serial, expiry and timestamp of X.509 entries. The byte formats of RFC 6962 are modelled; the library calls that parse them are modelled from their documentation."
  },
  {
   "property": "C76",
   "status": "partial",
   "theorems": [
    "Verif.Props.C76_never_resumes_fails",
    "Verif.Props.C76_range_header_would_resume"
   ],
   "note": "Refuted for every content and every cut: with the header as sent, a download that always breaks after the same number of bytes never finishes; with a Range header it would."
  },
  {
   "property": "C77",
   "status": "partial",
   "theorems": [
    "Verif.Props.C77_verifyCRL",
    "Verif.Props.C77_rollback_fails"
   ],
   "note": "Refuted by witness; the unused function verifyCRL would reject it."
  },
  {
   "property": "C78",
   "status": "partial",
   "theorems": [
    "Verif.Props.C78_download_partial",
    "Verif.Props.C78_recent",
    "Verif.Props.C78_truncated_fails"
   ],
   "note": "Without a local copy, or with one that is at least twelve hours old or does not load, issuers are only loaded from a complete report. Refuted with a younger local copy left by a broken download."
  },
  {
   "property": "C79",
   "status": "partial",
   "theorems": [
    "Verif.Props.C79_root_pool",
    "Verif.Props.C79_loaded",
    "Verif.Props.C79_intermediate_pool",
    "Verif.Props.C79_duplicate_row_fails",
    "Verif.Props.C79_certificate"
   ],
   "note": "Exact set of issuers and URLs loaded, for any iteration order; a certificate is found for each issuer whose CRLs are checked (`C79_certificate`). Refuted as 'all rows count': the second row of a certificate is ignored."
  },
  {
   "property": "C80",
   "status": "partial",
   "theorems": [
    "Verif.Props.C80_unknown_channel_fails",
    "Verif.Props.C80_other_channel_partial"
   ],
   "note": "Refuted for every collection with a record of an unknown channel. Proved if all channels are known."
  },
  {
   "property": "C81",
   "status": "proved",
   "theorems": [
    "Verif.Props.C81_runs",
    "Verif.Props.C81_files",
    "Verif.Props.C81_deltas_present",
    "Verif.Props.C81_given"
   ],
   "note": "By an invariant of the bucket (latest/revset.bin is that of the newest run if it is complete; every execution was given the set of the run before) kept at every upload, and one of the collection (parent and child carry consecutive complete runs) kept under every failure of the publisher. Conditions, all part of the statement: names come from 0-allocate_identifier with a clock that does not go back and numbers below a million (else C72 fails), one generation at a time, the requests of a publication may each be answered at their own moment while a generation uploads, fresh record identifiers. Only the channel with all reasons: the priority deltas are also taken against the all-reasons set (C60)."
  },
  {
   "property": "C82",
   "status": "partial",
   "theorems": [
    "Verif.Props.C82_revoked_partial",
    "Verif.Props.C82_not_revoked",
    "Verif.Props.C82_good"
   ],
   "note": "C81 composed with C56, C58 and C63. Not Revoked is proved; Revoked is proved provided every run of the chain that knew the certificate also covered one of its SCTs (C74_known_elsewhere_fails shows that this is needed). Assumes that a revocation set read back has the elements written."
  },
  {
   "property": "C83",
   "status": "partial",
   "theorems": [
    "Verif.Props.C83_covered_is_known_partial",
    "Verif.Props.C83_revoked_partial",
    "Verif.Props.C83_not_revoked_partial"
   ],
   "note": "C41, C40, C44, C46 and C74 composed, with a concrete run of all parts as example. Conditions: honest logs with their merge delay; RFC 6962 logs fetched back to entry 0 (C24_lower_edge_fails); not the first entry of a tiled log (C25_tiled_fails); timestamp not exactly the cutoff (C24_boundary_fails); no unnoticed write error (C44_last_flush_fails, C46_last_flush_fails); aggregate-crls not interrupted (C46_interrupted_fails); expiry hour not begun when aggregate-known ends; earlier runs that knew the revocation also covered the certificate (C74_known_elsewhere_fails). The clubcard library is assumed to cover at most what the coverage file says."
  },
  {
   "property": "C84",
   "status": "partial",
   "theorems": [
    "Verif.Props.C84_signed_was_reviewed",
    "Verif.Props.C84_signed_is_outcome",
    "Verif.Props.C84_signed_chain",
    "Verif.Props.C84_every_channel_partial",
    "Verif.Props.C84_signed_intermediates",
    "Verif.Props.C84_foreign_edit_fails",
    "Verif.Props.C84_other_channel_fails",
    "Verif.Props.C84_not_submitted_fails",
    "Verif.Props.C84_removal_not_submitted"
   ],
   "note": "Any clients: proved. One publisher: the signed content is the outcome of a publication; its channel is a single chain; intermediates equal the local list. For the other channels only if all publications went well (C84_every_channel_partial, C84_other_channel_fails). That every published content is submitted is false (C84_not_submitted_fails; C84_removal_not_submitted)."
  },
  {
   "property": "C85",
   "status": "partial",
   "theorems": [
    "Verif.Props.C85_instances",
    "Verif.Props.C85_size_limit_partial",
    "Verif.Props.C85_missing_fails"
   ],
   "note": "Proved if the size can be read; a missing file counts as 0 (C85_missing_fails)."
  },
  {
   "property": "C86",
   "status": "partial",
   "theorems": [
    "Verif.Props.C86_file_partial",
    "Verif.Props.C86_other_scheme_fails",
    "Verif.Props.C86_revoked_partial",
    "Verif.Props.C86_not_revoked_partial"
   ],
   "note": "From the rows of the report to file contents and the client's answer, for uninterrupted runs without unnoticed write errors, rows as CCADB writes them (no commas in URLs, C52_comma_fails) and http(s) URLs; a URL of another scheme is left out silently (C86_other_scheme_fails). Chain building is a parameter."
  },
  {
   "property": "C87",
   "status": "partial",
   "theorems": [
    "Verif.Props.C87_fetched",
    "Verif.Props.C87_download_reported",
    "Verif.Props.C87_old_reported",
    "Verif.Props.C87_aggregation_reported",
    "Verif.Props.C87_complete_partial",
    "Verif.Props.C87_unreported_fails"
   ],
   "note": "Exact for each kind of entry; completeness when directories can be made, renames succeed and files can be looked at; otherwise nothing is reported (C87_unreported_fails)."
  },
  {
   "property": "C88",
   "status": "proved",
   "theorems": [
    "Verif.Props.C88_only_expired_removed",
    "Verif.Props.C88_valid_kept",
    "Verif.Props.C88_expired_gone",
    "Verif.Props.C88_listing_after",
    "Verif.Props.C88_temporary_not_listed"
   ],
   "note": "For any directory contents, failures and crash points."
  },
  {
   "property": "C89",
   "status": "partial",
   "theorems": [
    "Verif.Props.C89_read_back",
    "Verif.Props.C89_read_exact",
    "Verif.Props.C89_cut",
    "Verif.Props.C89_success_partial",
    "Verif.Props.C89_always_readable",
    "Verif.Props.C89_flush_ignored_fails",
    "Verif.Props.C89_lost_answer_fails",
    "Verif.Props.C89_counted_again_fails",
    "Verif.Props.C89_reset_unnoticed_fails"
   ],
   "note": "Read back and the effect of a cut write: proved for all epochs below 2^64. That success means matching epochs: proved when the line was flushed completely and Redis counts once if it says so and otherwise not at all; false otherwise (C89_flush_ignored_fails, C89_lost_answer_fails, C89_counted_again_fails, C89_reset_unnoticed_fails)."
  },
  {
   "property": "C90",
   "status": "partial",
   "theorems": [
    "Verif.Props.C90_unique_id",
    "Verif.Props.C90_local",
    "Verif.Props.C90_local_fields",
    "Verif.Props.C90_local_accepted",
    "Verif.Props.C90_remote",
    "Verif.Props.C90_remote_fields",
    "Verif.Props.C90_read_back",
    "Verif.Props.C90_no_update",
    "Verif.Props.C90_review_partial",
    "Verif.Props.C90_empty_hash_fails",
    "Verif.Props.C90_unmarked_fails",
    "Verif.Props.C90_removed",
    "Verif.Props.C90_alphabet"
   ],
   "note": "Comparison text, acceptance and reading back: proved for all records. What review is requested for: proved for records with a non-empty derHash; an empty one is accepted unchecked (C90_empty_hash_fails). A broken attachment stops publication instead of being repaired (C90_unmarked_fails). SHA-256, X.509 parsing and the PEM marker search are parameters."
  },
  {
   "property": "C91",
   "status": "partial",
   "theorems": [
    "Verif.Props.C91_one_at_a_time_partial",
    "Verif.Props.C91_exclusive_partial",
    "Verif.Props.C91_dead_holder_blocks",
    "Verif.Props.C91_obtained_partial",
    "Verif.Props.C91_slow_fails",
    "Verif.Props.C91_slow_release_fails",
    "Verif.Props.C91_lost_key_fails",
    "Verif.Props.C91_lost_answer_fails",
    "Verif.Props.C91_overlap_loses_fails"
   ],
   "note": "For any number of processes, schedules, deaths and lost answers: proved if each process is done within four hours of getting the lock and Redis keeps the key; false otherwise (C91_slow_fails, C91_slow_release_fails, C91_lost_key_fails), with loss of stored certificates (C91_overlap_loses_fails). That a free lock is obtained: proved without deaths and lost answers."
  },
  {
   "property": "C92",
   "status": "partial",
   "theorems": [
    "Verif.Props.C92_revoked_partial",
    "Verif.Props.C92_not_revoked_partial",
    "Verif.Props.C92_good_partial"
   ],
   "note": "Joins C82 with C83 and C86. Proved for certificates whose earlier listings were covered too (otherwise C74_known_elsewhere_fails), and under the conditions that C83 and C86 name; the channel must be a chain that the client has downloaded."
  },
  {
   "property": "C93",
   "status": "partial",
   "theorems": [
    "Verif.Props.C93_stored",
    "Verif.Props.C93_known_partial",
    "Verif.Props.C93_unverified_fails"
   ],
   "note": "Served, right issuer, right hour: proved for storage without any condition, and for the known files if no write error went unnoticed (C44_last_flush_fails, C04_cut_fails). Checked against the tree: false (C93_unverified_fails)."
  },
  {
   "property": "C94",
   "status": "partial",
   "theorems": [
    "Verif.Props.C94_order",
    "Verif.Props.C94_done_partial",
    "Verif.Props.C94_early_fails",
    "Verif.Props.C94_closed_fails",
    "Verif.Props.C94_unsaved_fails",
    "Verif.Props.C94_no_deadlock"
   ],
   "note": "Order of messages and absence of deadlock: proved for every schedule. Exit only when done, no send on a closed channel: proved if every started goroutine has reached its Add before main passes the corresponding Wait; false otherwise (C94_early_fails, C94_closed_fails, C94_unsaved_fails)."
  },
  {
   "property": "C95",
   "status": "partial",
   "theorems": [
    "Verif.Props.C95_storage",
    "Verif.Props.C95_cache_partial",
    "Verif.Props.C95_cache_fails",
    "Verif.Props.C95_coverage_fails"
   ],
   "note": "Storage: proved for every schedule and error. Cache: proved if no request fails; otherwise the caller may go on with a part until the process ends (C95_cache_fails), long enough to replace the coverage file (C95_coverage_fails)."
  },
  {
   "property": "C96",
   "status": "partial",
   "theorems": [
    "Verif.Props.C96_done_partial",
    "Verif.Props.C96_status",
    "Verif.Props.C96_filter",
    "Verif.Props.C96_cascade_exact",
    "Verif.Props.C96_no_overwrite",
    "Verif.Props.C96_no_mix",
    "Verif.Props.C96_exit_zero_fails",
    "Verif.Props.C96_clobber_fails",
    "Verif.Props.C96_retry_fails",
    "Verif.Props.C96_cascade_fails",
    "Verif.Props.C96_dirs",
    "Verif.Props.C96_outdir_fails"
   ],
   "note": "Status, files and exactness are proved for calls that the builder accepts and for arbitrary libraries. The full statement fails: a refused call (missing input, directory that cannot be made) ends with status 0 and without files, with --clobber after deleting the old ones; an empty cascade is not written; without --clobber a refused call blocks its repetition. Omitting --reason-set writes into clubcard-None."
  },
  {
   "property": "C97",
   "status": "partial",
   "theorems": [
    "Verif.Props.C97_given",
    "Verif.Props.C97_revoked_partial",
    "Verif.Props.C97_good",
    "Verif.Props.C97_reason_change_fails"
   ],
   "note": "Good and NotCovered are proved in full, Revoked for certificates whose reason did not change from another one to a priority reason between consecutive runs and whose SCTs each run that knew them covered. Without the first it fails (`C97_reason_change_fails`), without the second see C74."
  },
  {
   "property": "C98",
   "status": "partial",
   "theorems": [
    "Verif.Props.C98_events",
    "Verif.Props.C98_no_panic",
    "Verif.Props.C98_zero_batch_fails",
    "Verif.Props.C98_unreachable",
    "Verif.Props.C98_truthful_log_partial",
    "Verif.Props.C98_ended_why_partial",
    "Verif.Props.C98_stale_head_fails",
    "Verif.Props.C98_stale_head_between_fails",
    "Verif.Props.C98_short_start_fails",
    "Verif.Props.C98_spin_fails",
    "Verif.Props.C98_bounded_partial"
   ],
   "note": "The absence of panics is proved for every batch size above zero. That a truthful log never ends its worker, and the reasons for an end, are proved for tree heads that reach the range kept and ranges that do not begin at entry 1, 2 or 3. Both conditions are needed (`C98_stale_head_fails`, `C98_stale_head_between_fails`, `C98_short_start_fails`). The bound on the answers needs that they are not empty (`C98_spin_fails`). Batch size zero crashes (`C98_zero_batch_fails`)."
  },
  {
   "property": "C99",
   "status": "partial",
   "theorems": [
    "Verif.Props.C99_inputs_partial",
    "Verif.Props.C99_generates",
    "Verif.Props.C99_generates_priority",
    "Verif.Props.C99_complete_run",
    "Verif.Props.C99_download_interrupted",
    "Verif.Props.C99_list_cut_fails",
    "Verif.Props.C99_uploads_iff",
    "Verif.Props.C99_revoked_partial",
    "Verif.Props.C99_not_revoked_partial",
    "Verif.Props.C99_good_partial",
    "Verif.Props.C99_interrupted_fails",
    "Verif.Props.C99_priority_missing_fails"
   ],
   "note": "That complete runs have the files of one execution, that the builder makes them from the input the Go programs left, and that an execution cut off during the downloads uploads nothing, are proved in full. That the builder can read the files (`C99_inputs_partial`) needs that no write error went unnoticed (`C44_last_flush_fails`, `C46_last_flush_fails`) and that it is not the first day of 1970. The answers (`C99_revoked_partial`, `C99_not_revoked_partial`, `C99_good_partial`) need in addition that aggregate-crls was not interrupted (`C99_interrupted_fails`) and the conditions of C92. The priority filter can be missing in a complete run (`C99_priority_missing_fails`)."
  },
  {
   "property": "C100",
   "status": "partial",
   "theorems": [
    "Verif.Props.C100_list_read",
    "Verif.Props.C100_rejected",
    "Verif.Props.C100_certificate_read",
    "Verif.Props.C100_same_number_partial",
    "Verif.Props.C100_only_listed",
    "Verif.Props.C100_downloaded",
    "Verif.Props.C100_padded_serial_fails",
    "Verif.Props.C100_foreign_entry_fails"
   ],
   "note": "Reading of well-formed lists and certificates and the soundness for arbitrary octets are proved in full. That certificates and entries are matched by number (`C100_same_number_partial`) needs serial numbers in DER: one with a superfluous leading zero octet is not found (`C100_padded_serial_fails`). Entries that a critical extension assigns to another issuer are recorded like all others (`C100_foreign_entry_fails`). Object identifiers are limited to components under 2^31, which is what encoding/asn1 accepts."
  },
  {
   "property": "C101",
   "status": "partial",
   "theorems": [
    "Verif.Props.C101_same_messages",
    "Verif.Props.C101_issuers_partial",
    "Verif.Props.C101_asked_once",
    "Verif.Props.C101_followed",
    "Verif.Props.C101_all_jobs",
    "Verif.Props.C101_error_ends",
    "Verif.Props.C101_zero_batch_fails",
    "Verif.Props.C101_saved",
    "Verif.Props.C101_whole_log_partial",
    "Verif.Props.C101_unparsable_fails",
    "Verif.Props.C101_missing_issuer_fails",
    "Verif.Props.C101_fingerprint_fails"
   ],
   "note": "The end of jobs, the saved progress and the single request for each issuer are proved in full. The recorded issuer (`C101_issuers_partial`) is right if the log's answers have the fingerprints asked for, which the program does not check: one wrong answer is kept for the life of the process (`C101_fingerprint_fails`). Two jobs reach the end of the log (`C101_whole_log_partial`), but entry 0 is never read. One entry that cannot be parsed, or one issuer that is not answered, stops the log at that entry for good (`C101_unparsable_fails`, `C101_missing_issuer_fails`), and a batch size of 0 kills the process (`C101_zero_batch_fails`). By `C101_same_messages` the theorems of C21, C25, C26, C27 and C75 about tiled logs apply to these jobs."
  },
  {
   "property": "C102",
   "status": "partial",
   "theorems": [
    "Verif.Props.C102_finished",
    "Verif.Props.C102_finished_logs_partial",
    "Verif.Props.C102_stops",
    "Verif.Props.C102_log_list_fails",
    "Verif.Props.C102_unmarked_fails",
    "Verif.Props.C102_noop",
    "Verif.Props.C102_repeat",
    "Verif.Props.C102_noop_ends",
    "Verif.Props.C102_interrupted",
    "Verif.Props.C102_submitted_partial",
    "Verif.Props.C102_clearing_fails",
    "Verif.Props.C102_stuck_fails",
    "Verif.Props.C102_same_requests",
    "Verif.Props.C102_signed",
    "Verif.Props.C102_unnoticed_fails"
   ],
   "note": "Filters, intermediates, dry runs, repetition and the order of calls are proved in full (`C102_finished`, `C102_stops`, `C102_noop`, `C102_noop_ends`, `C102_repeat`, `C102_interrupted`, `C102_signed`). The logs are up to date only if no request was refused (`C102_finished_logs_partial`), as refusals are only written to the log (`C102_unnoticed_fails`). The filters are submitted only if nothing had to be removed (`C102_submitted_partial`): otherwise the removal, which comes after the requests for review, withdraws also the new filters, and no repetition helps (`C102_clearing_fails`, `C102_stuck_fails`). One bad entry of Google's list, or a record of a log without `crlite_enrolled`, stops the publication of filters and intermediates (`C102_log_list_fails`, `C102_unmarked_fails`)."
  },
  {
   "property": "C103",
   "status": "proved",
   "theorems": [
    "Verif.Props.C103_one_instant",
    "Verif.Props.C103_one_meaning",
    "Verif.Props.C103_states_text",
    "Verif.Props.C103_states",
    "Verif.Props.C103_issuers",
    "Verif.Props.C103_written",
    "Verif.Props.C103_cut",
    "Verif.Props.C103_octets_fails",
    "Verif.Props.C103_case_fails",
    "Verif.Props.C103_null_fails",
    "Verif.Props.C103_further"
   ],
   "note": "`C103_states_text`, `C103_states`, `C103_issuers`, `C103_one_meaning`, `C103_one_instant`, `C103_written`, `C103_cut` and `C103_further` for all inputs. Octets that are not UTF-8 are lost (`C103_octets_fails`), as the statement says. Members whose names differ in case are read differently by the programs, but never written (`C103_case_fails`); likewise `null` (`C103_null_fails`). That the parsers of Go, Rust and Python follow the RFCs is an assumption (`GoodReaders`), which is shown to be satisfiable."
  },
  {
   "property": "C104",
   "status": "proved",
   "theorems": [
    "Verif.Props.C104_one_meaning",
    "Verif.Props.C104_written",
    "Verif.Props.C104_read_exact",
    "Verif.Props.C104_cut",
    "Verif.Props.C104_previous",
    "Verif.Props.C104_next_run",
    "Verif.Props.C104_client",
    "Verif.Props.C104_stuck_fails"
   ],
   "note": "`C104_written`, `C104_read_exact`, `C104_one_meaning` and `C104_cut` describe the format, `C104_previous` and `C104_next_run` the revocation set, `C104_client` the issuers. `bincode` itself is modelled from its documentation (fixed-length integers, little end first, what follows is ignored). Besides: a part of the intermediates file that an interrupted update leaves is not fetched anew, so that all later starts fail until an update (`C104_stuck_fails`)."
  },
  {
   "property": "C105",
   "status": "partial",
   "theorems": [
    "Verif.Props.C105_one_meaning",
    "Verif.Props.C105_read",
    "Verif.Props.C105_written",
    "Verif.Props.C105_hand_over",
    "Verif.Props.C105_script",
    "Verif.Props.C105_client",
    "Verif.Props.C105_found",
    "Verif.Props.C105_plain_partial",
    "Verif.Props.C105_hidden_fails"
   ],
   "note": "Proved for armour of either kind (`C105_one_meaning`, `C105_read`, `C105_written`, `C105_hand_over`, `C105_script`, `C105_client`, `C105_found`) and for files without a marker or that are armour (`C105_plain_partial`). The full statement about files is false: a block of armour inside a DER file, for example in the unsigned parameters of the signature algorithm, is what the check of the distribution point and the client look at, while the signature and the revocations are those of the file around it (`C105_hidden_fails`)."
  },
  {
   "property": "C106",
   "status": "partial",
   "theorems": [
    "Verif.Props.C106_saved_partial",
    "Verif.Props.C106_one_job",
    "Verif.Props.C106_published_partial",
    "Verif.Props.C106_cutoff_partial",
    "Verif.Props.C106_client",
    "Verif.Props.C106_lost_fails",
    "Verif.Props.C106_stale_start_fails"
   ],
   "note": "Proved for all runs in which a job of a log starts only when the states of its earlier jobs are saved (`C106_saved_partial`, `C106_published_partial`, `C106_cutoff_partial`), in particular for processes with one job per log (`C106_one_job`), and for clients if coverage grows (`C106_client`). The full statement is false: with `RunForever` the next job loads its state while those of the last one are still in the channel, and publishes less than before (`C106_stale_start_fails`); a certificate revoked in the run with the smaller coverage is then never answered Revoked until the next full filter (`C106_lost_fails`)."
  },
  {
   "property": "C107",
   "status": "partial",
   "theorems": [
    "Verif.Props.C107_not_ready",
    "Verif.Props.C107_files_partial",
    "Verif.Props.C107_host_port",
    "Verif.Props.C107_hosts",
    "Verif.Props.C107_served_unique",
    "Verif.Props.C107_signoff",
    "Verif.Props.C107_crtsh",
    "Verif.Props.C107_update_works",
    "Verif.Props.C107_updated",
    "Verif.Props.C107_database",
    "Verif.Props.C107_revoked_file",
    "Verif.Props.C107_end_to_end_partial",
    "Verif.Props.C107_skipped_fails",
    "Verif.Props.C107_bundle_fails",
    "Verif.Props.C107_unreachable_fails",
    "Verif.Props.C107_second_address_fails",
    "Verif.Props.C107_stage_fails",
    "Verif.Props.C107_run_url"
   ],
   "note": "Proved: the status is 0 or 1, and 1 without a database (`C107_not_ready`), and what the database holds (`C107_database`); for files that hold one certificate each it is as claimed (`C107_files_partial`, `C107_revoked_file`); for hosts, hosts files and crt.sh it is 0 exactly if each certificate asked for was obtained and is not known to be revoked (`C107_hosts`, `C107_served_unique`, `C107_host_port`, `C107_signoff`, `C107_crtsh`); after an update the filters are the listed ones and the issuers those of the latest run (`C107_updated`), an update succeeds if the listed filters are at their places (`C107_update_works`), the directory of the run is found from the names the publisher gives (`C107_run_url`); a certificate known and revoked in the runs whose filters are loaded gives 1 (`C107_end_to_end_partial`, with the restriction of C74). The full statement is false: files that are missing, unreadable or no certificate give 0 (`C107_skipped_fails`), of several armoured texts only the first is looked at (`C107_bundle_fails`), an unreachable host gives 1 (`C107_unreachable_fails`), only the first answering address of a host is judged (`C107_second_address_fails`), and `--update stage` takes the issuers from the production bucket (`C107_stage_fails`)."
  },
  {
   "property": "C108",
   "status": "partial",
   "theorems": [
    "Verif.Props.C108_read",
    "Verif.Props.C108_client",
    "Verif.Props.C108_issuer",
    "Verif.Props.C108_same_serial",
    "Verif.Props.C108_agree",
    "Verif.Props.C108_damaged_fails",
    "Verif.Props.C108_duplicate_fails",
    "Verif.Props.C108_unseen_fails",
    "Verif.Props.C108_name_fails",
    "Verif.Props.C108_end_to_end_partial",
    "Verif.Props.C108_logs_revoked_partial",
    "Verif.Props.C108_logs_clear",
    "Verif.Props.C108_accepts",
    "Verif.Props.C108_seen"
   ],
   "note": "Proved: a certificate after RFC 5280 is read with its fields as written (`C108_read`, `C108_client`, `C108_issuer`), the serial number is that of ct-fetch (`C108_same_serial`), also for octets that are not after RFC 5280 as long as both readers accept them (`C108_agree`), whatever octets are accepted are a certificate in the looser form that is spelt out in Spec/X509 (`C108_accepts`) and the timestamps that are seen are in its extension (`C108_seen`), and a certificate known and revoked in the runs whose filters are loaded gives exit status 1 (`C108_end_to_end_partial`, with the restriction of C74), from the entries of the logs and the CRLs on (`C108_logs_revoked_partial`), and one that was on no CRL gives 0 (`C108_logs_clear`). The full statement is false: timestamps after a damaged one are not seen (`C108_damaged_fails`), with two timestamp extensions none is seen (`C108_duplicate_fails`), a certificate without a covered timestamp that is seen is never Revoked (`C108_unseen_fails`), and an issuer whose name is written in other octets is not found (`C108_name_fails`)."
  },
  {
   "property": "C109",
   "status": "partial",
   "theorems": [
    "Verif.Props.C109_redis",
    "Verif.Props.C109_refused_reported",
    "Verif.Props.C109_mock_partial",
    "Verif.Props.C109_alike_partial",
    "Verif.Props.C109_expiry_fails",
    "Verif.Props.C109_lock_fails",
    "Verif.Props.C109_restore_fails",
    "Verif.Props.C109_slash_fails",
    "Verif.Props.C109_remove_fails",
    "Verif.Props.C109_keys_fails"
   ],
   "note": "Proved: Redis answers as it should for all sequences of proper calls (`C109_redis`); the in-memory cache does within four hours, when nothing expires, URLs and keys are as the programs build them, the lock is free when the cache is restored and members are removed from the end (`C109_mock_partial`), and then both say the same (`C109_alike_partial`). The full statement is false for the in-memory cache: it ignores the expiry times of SetInsertMany (`C109_expiry_fails`), keeps a lock for ever (`C109_lock_fails`), can be restored while locked (`C109_restore_fails`), keeps slashes at the end of URLs (`C109_slash_fails`), leaves members that were to be removed (`C109_remove_fails`), and does not list keys with slashes (`C109_keys_fails`)."
  },
  {
   "property": "C110",
   "status": "partial",
   "theorems": [
    "Verif.Props.C110_reads",
    "Verif.Props.C110_written",
    "Verif.Props.C110_cut_partial",
    "Verif.Props.C110_refused",
    "Verif.Props.C110_loaded",
    "Verif.Props.C110_columns",
    "Verif.Props.C110_disclosed",
    "Verif.Props.C110_cut_fails",
    "Verif.Props.C110_empty_fails",
    "Verif.Props.C110_bom_fails"
   ],
   "note": "Proved: which texts are accepted and what is read from them (`C110_reads`, an equivalence, so nothing is read two ways), that whatever was written is read back (`C110_written`), when the report is refused (`C110_refused`), that rows are read by the names of columns (`C110_loaded`), that other columns and their order do not matter (`C110_columns`), and which CRLs come from the text (`C110_disclosed`). The full statement is false for reports that are not whole: `C110_cut_partial` says what the beginning of a report can be read as; `C110_cut_fails` is a report whose last URL is cut and taken, `C110_empty_fails` a report that ends after its header. A byte order mark makes the report unreadable (`C110_bom_fails`)."
  },
  {
   "property": "C111",
   "status": "partial",
   "theorems": [
    "Verif.Props.C111_insert_reported",
    "Verif.Props.C111_full_safe_partial",
    "Verif.Props.C111_commit_goes_on_partial",
    "Verif.Props.C111_stuck_fails",
    "Verif.Props.C111_evicted_fails",
    "Verif.Props.C111_epoch_evicted_fails",
    "Verif.Props.C111_log_evicted_fails",
    "Verif.Props.C111_published_fails",
    "Verif.Props.C111_policy_ignored_fails",
    "Verif.Props.C111_epoch_refused_partial",
    "Verif.Props.C111_policy_tested_partial"
   ],
   "note": "Proved for a server that evicts nothing: whatever it refuses, nothing is lost and coverage is published for stored certificates only (`C111_full_safe_partial`); an insertion that reports success stored everything (`C111_insert_reported`); a commit that has begun is not hindered until it counts the epoch (`C111_commit_goes_on_partial`), and can be repeated if it is refused there (`C111_epoch_refused_partial`). The rest of the statement is false: taking the commit lock needs memory, so nothing changes until a bin expires (`C111_stuck_fails`, for every sequence of steps); a server with another policy evicts bins but not the states that claim them (`C111_evicted_fails`, `C111_published_fails`, `C111_epoch_evicted_fails`), and the programs only log a warning (`C111_policy_ignored_fails`), though the test itself is right (`C111_policy_tested_partial`)."
  },
  {
   "property": "C112",
   "status": "partial",
   "theorems": [
    "Verif.Props.C112_env_number",
    "Verif.Props.C112_env_signed",
    "Verif.Props.C112_same_partial",
    "Verif.Props.C112_octal_fails",
    "Verif.Props.C112_underscore_fails",
    "Verif.Props.C112_hex_fails",
    "Verif.Props.C112_bases_fails",
    "Verif.Props.C112_words_fails",
    "Verif.Props.C112_ignored_fails",
    "Verif.Props.C112_usable_partial",
    "Verif.Props.C112_others_partial",
    "Verif.Props.C112_no_workers_fails",
    "Verif.Props.C112_batch_zero_fails",
    "Verif.Props.C112_batch_huge",
    "Verif.Props.C112_no_pause_fails"
   ],
   "note": "Proved: which texts are numbers in the environment (`C112_env_number`, `C112_env_signed`); plain decimals and the words for truth values of the environment mean the same in the file (`C112_same_partial`); if all numbers given are plain decimals in a sensible range, the programs start with usable settings, by the order of precedence (`C112_usable_partial`, `C112_others_partial`); a batch size that is far too large ends ct-fetch at the start (`C112_batch_huge`). The rest is false: numbers with a zero in front are decimal in one place and octal in the other (`C112_octal_fails`), underscores are taken in one place only (`C112_underscore_fails`, `C112_hex_fails`, `C112_bases_fails`), words and large numbers that the file takes are nothing in the environment (`C112_words_fails`), what is no number is passed over in silence (`C112_ignored_fails`), and other numbers are not refused for their size: without workers the aggregators succeed without a file (`C112_no_workers_fails`), a batch size of zero stops ct-fetch later on (`C112_batch_zero_fails`), and waiting times of zero or too large are no waiting (`C112_no_pause_fails`)."
  },
  {
   "property": "C113",
   "status": "partial",
   "theorems": [
    "Verif.Props.C113_enrolled",
    "Verif.Props.C113_record",
    "Verif.Props.C113_followed_partial",
    "Verif.Props.C113_stops",
    "Verif.Props.C113_ended_fails",
    "Verif.Props.C113_stale_head_fails",
    "Verif.Props.C113_changed_fails",
    "Verif.Props.C113_gone_fails",
    "Verif.Props.C113_fresh"
   ],
   "note": "Proved: a log is enrolled iff the last record about it says so (`C113_enrolled`), with the first record since its last withdrawal (`C113_record`); if no goroutine of the log returned because of a job, it is followed iff enrolled (`C113_followed_partial`); a new process follows exactly what the list says (`C113_fresh`); after a signal every goroutine ends (`C113_stops`). The rest is false: a log whose job ended with an error is enrolled and not followed until the next start (`C113_ended_fails`, for which one old tree head is enough, `C113_stale_head_fails`); a changed record is not taken over (`C113_changed_fails`); a log that is not listed any more is followed on (`C113_gone_fails`)."
  },
  {
   "property": "C114",
   "status": "partial",
   "theorems": [
    "Verif.Props.C114_exact",
    "Verif.Props.C114_file",
    "Verif.Props.C114_bounded_partial",
    "Verif.Props.C114_found_partial",
    "Verif.Props.C114_run",
    "Verif.Props.C114_run_found_partial",
    "Verif.Props.C114_complete",
    "Verif.Props.C114_clock_fails",
    "Verif.Props.C114_clock_far_fails",
    "Verif.Props.C114_stale_fails"
   ],
   "note": "Proved: with which request, how and when a wait ends (`C114_exact`); what becomes of the local file (`C114_file`); without a change of the clock it ends within the limit, one sleep and one request (`C114_bounded_partial`), and what comes in time is found (`C114_found_partial`, `C114_run_found_partial`); a return means that the newest run of the listing is complete (`C114_run`), and then each file of the run is got with the first request (`C114_complete`). The rest is false: the limit is measured with local time, so that the wait goes on for an hour, or for any time, when the clock is set back, and ends early when it is set forward (`C114_clock_fails`, `C114_clock_far_fails`); runs that begin during the wait are not seen (`C114_stale_fails`)."
  },
  {
   "property": "C115",
   "status": "partial",
   "theorems": [
    "Verif.Props.C115_words",
    "Verif.Props.C115_values",
    "Verif.Props.C115_forbidden",
    "Verif.Props.C115_upload_last",
    "Verif.Props.C115_status",
    "Verif.Props.C115_uploads",
    "Verif.Props.C115_mlbf_partial",
    "Verif.Props.C115_uploads_partial",
    "Verif.Props.C115_allocate_partial",
    "Verif.Props.C115_aggregate_partial",
    "Verif.Props.C115_channels_partial",
    "Verif.Props.C115_runs_partial",
    "Verif.Props.C115_statsd_fails",
    "Verif.Props.C115_log_dir_fails",
    "Verif.Props.C115_outdir_fails",
    "Verif.Props.C115_noop",
    "Verif.Props.C115_noop_server",
    "Verif.Props.C115_publish_partial",
    "Verif.Props.C115_inherited_fails",
    "Verif.Props.C115_again_fails",
    "Verif.Props.C115_signoff_noop",
    "Verif.Props.C115_signoff_fails",
    "Verif.Props.C115_credentials",
    "Verif.Props.C115_credentials_fails",
    "Verif.Props.C115_verbose_partial",
    "Verif.Props.C115_nodiff"
   ],
   "note": "Proved: options that the scripts do not write themselves (`C115_verbose_partial`, `C115_nodiff`); DoNotUpload and KINTO_NOOP hold for every environment (`C115_forbidden`, `C115_noop`, `C115_noop_server`, `C115_signoff_noop`); the order of the steps and the meaning of status 0 (`C115_upload_last`, `C115_status`, `C115_uploads`); word splitting (`C115_words`); which words can be values of options (`C115_values`); credentials (`C115_credentials`); and if the settings are single words, the exact arguments of every program (`C115_allocate_partial`, `C115_aggregate_partial`, `C115_uploads_partial`, `C115_mlbf_partial`, `C115_channels_partial`, `C115_publish_partial`, `C115_runs_partial`). The rest is false: without the host for statistics, which every program takes as optional, the script cannot build a filter (`C115_statsd_fails`); the log of the second aggregator goes to /log (`C115_log_dir_fails`); the folder of a filter without --reason-set (`C115_outdir_fails`); ARGS of the environment goes to the publisher (`C115_inherited_fails`); second executions in one file system (`C115_again_fails`, `C115_credentials_fails`); DoNotUpload does not stop signatures (`C115_signoff_fails`)."
  },
  {
   "property": "C116",
   "status": "partial",
   "theorems": [
    "Verif.Props.C116_accepts",
    "Verif.Props.C116_only_partial",
    "Verif.Props.C116_unambiguous",
    "Verif.Props.C116_wrap_fails",
    "Verif.Props.C116_period",
    "Verif.Props.C116_host_fails",
    "Verif.Props.C116_timeout_partial",
    "Verif.Props.C116_timeout_fails",
    "Verif.Props.C116_defaults"
   ],
   "note": "Proved: every text of the documented form that fits into 63 bits is taken for its duration (`C116_accepts`), has one meaning (`C116_unambiguous`), and nothing else is accepted except sums of 584 years or more (`C116_only_partial`); without a host for statistics a program begins exactly with a positive period (`C116_period`); a positive timeout is the one used and what is no duration ends the program (`C116_timeout_partial`); the defaults (`C116_defaults`). The rest is false: sums that leave 64 bits are accepted (`C116_wrap_fails`), with a host the period is not looked at (`C116_host_fails`), a timeout of zero is three seconds and one below zero is for ever (`C116_timeout_fails`)."
  },
  {
   "property": "C117",
   "status": "partial",
   "theorems": [
    "Verif.Props.C117_meaning",
    "Verif.Props.C117_same_partial",
    "Verif.Props.C117_again",
    "Verif.Props.C117_dropped_fails",
    "Verif.Props.C117_lost_fails",
    "Verif.Props.C117_files_partial",
    "Verif.Props.C117_bytes_fails"
   ],
   "note": "Proved: the normal form of a query has the same values for every name, in order, and the names increasing (`C117_meaning`); URLs whose queries are pairs have the same normal form exactly when they agree up to the order of names and escapes (`C117_same_partial`), and otherwise get different files unless hashes collide (`C117_files_partial`); normalising again changes nothing (`C117_again`). The rest is false: parts of a query with a semicolon are dropped (`C117_dropped_fails`), so that two URLs can get one file and the revocations of one CRL are lost (`C117_lost_fails`); a distribution point is not compared byte for byte (`C117_bytes_fails`)."
  },
  {
   "property": "C118",
   "status": "partial",
   "theorems": [
    "Verif.Props.C118_written",
    "Verif.Props.C118_reads",
    "Verif.Props.C118_read_back",
    "Verif.Props.C118_order",
    "Verif.Props.C118_day",
    "Verif.Props.C118_bucket_partial",
    "Verif.Props.C118_repeat_partial",
    "Verif.Props.C118_offset_fails",
    "Verif.Props.C118_zone_fails",
    "Verif.Props.C118_same_second_fails",
    "Verif.Props.C118_midnight_fails"
   ],
   "note": "Proved: what is written says the second (`C118_written`), what is read is what date and time of day say in UTC (`C118_reads`), both are inverse (`C118_read_back`), names sort as times (`C118_order`, which is the assumption `NamesFollow` of C102), and names have the date of the day (`C118_day`). Up to a million runs on a clock that does not go back, no two in one second, make a bucket as C102 assumes it (`C118_bucket_partial`), so that a second execution changes nothing (`C118_repeat_partial`). False: records of one second sort by kind (`C118_same_second_fails`); date and file of a run can be of different days (`C118_midnight_fails`); the time in a name has two zones (`C118_zone_fails`); an offset in the file is replaced (`C118_offset_fails`)."
  },
  {
   "property": "C119",
   "status": "partial",
   "theorems": [
    "Verif.Props.C119_targets",
    "Verif.Props.C119_channels",
    "Verif.Props.C119_written",
    "Verif.Props.C119_view",
    "Verif.Props.C119_early",
    "Verif.Props.C119_client",
    "Verif.Props.C119_old_fails",
    "Verif.Props.C119_history",
    "Verif.Props.C119_revoked_partial",
    "Verif.Props.C119_not_revoked"
   ],
   "note": "Proved: the expression is true exactly for the clients of the channel with a supported version (`C119_targets`, `C119_channels`), every record that an execution leaves was there before or has the channel of a channel in use (`C119_written`), what a client gets is the publisher's list of the channel (`C119_view`), nothing for earlier versions (`C119_early`), a single chain with the newest run after an execution without an error (`C119_client`), the channel's records after any history (`C119_history`), and with them the answers of C82 (`C119_revoked_partial`, `C119_not_revoked`). False: a record without a channel, which the publisher counts to `default`, has no expression, so every client gets it (`C119_old_fails`)."
  },
  {
   "property": "C120",
   "status": "partial",
   "theorems": [
    "Verif.Props.C120_loaded_partial",
    "Verif.Props.C120_succeeds",
    "Verif.Props.C120_revoked_partial",
    "Verif.Props.C120_not_revoked_partial",
    "Verif.Props.C120_priority_partial"
   ],
   "note": "Proved: the filters loaded are those published in the channel (`C120_loaded_partial`), the update succeeds when it can (`C120_succeeds`), and the answers that follow, from the inputs of the generation to the query (`C120_revoked_partial`, `C120_not_revoked_partial`, `C120_priority_partial`). Assumed: Remote Settings notes the SHA-256 of the attached file, and nothing that was in the directory or is downloaded has the digest of a published filter without being it. Missing: removals that fail (`C64_remove_fails`), runs that knew the certificate from elsewhere (`C74_known_elsewhere_fails`), changes of the reason (`C97_reason_change_fails`), channels that the query program does not know (`C80_unknown_channel_fails`)."
  },
  {
   "property": "C121",
   "status": "partial",
   "theorems": [
    "Verif.Props.C121_filters_partial",
    "Verif.Props.C121_issuers_partial",
    "Verif.Props.C121_revoked_partial",
    "Verif.Props.C121_priority_partial",
    "Verif.Props.C121_not_revoked_partial",
    "Verif.Props.C121_priority_clear_partial"
   ],
   "note": "Proved: the filters (`C121_filters_partial`), the issuers (`C121_issuers_partial`), the exit status for revoked certificates on both channels (`C121_revoked_partial`, `C121_priority_partial`) and for those not revoked (`C121_not_revoked_partial`, `C121_priority_clear_partial`). Assumed: what C120 assumes. The list of issuers of the newest run is taken as the bucket serves it. Missing: removals that fail (`C64_remove_fails`), files in the directory whose name begins like a run but is not that of a filter (`C65_stray_fails`), runs that knew the certificate from elsewhere (`C74_known_elsewhere_fails`), changes of the reason (`C97_reason_change_fails`), files that are not looked at (`C107_skipped_fails`)."
  },
  {
   "property": "C122",
   "status": "partial",
   "theorems": [
    "Verif.Props.C122_saved",
    "Verif.Props.C122_issuers_partial",
    "Verif.Props.C122_revoked_partial",
    "Verif.Props.C122_not_revoked_partial",
    "Verif.Props.C122_priority_partial",
    "Verif.Props.C122_priority_clear_partial"
   ],
   "note": "Proved: which certificates the list of issuers has (`C122_saved`), that the updated program has those of the newest published execution (`C122_issuers_partial`), and its exit status for certificates that are revoked (`C122_revoked_partial`) and that are not (`C122_not_revoked_partial`), and likewise for the priority reasons on the other channel (`C122_priority_partial`, `C122_priority_clear_partial`). Assumed: what C99 assumes of the libraries, what C120 assumes of Remote Settings, and that the query program reads the list of issuers as it was written (`C103_issuers` for the JSON, `C105_read` for the armour). Missing: what C99 and C121 miss; for the other channel also executions whose builder could not make the directory of the priority filters (`C99_priority_missing_fails`)."
  },
  {
   "property": "C123",
   "status": "partial",
   "theorems": [
    "Verif.Props.C123_final",
    "Verif.Props.C123_which",
    "Verif.Props.C123_reported_partial",
    "Verif.Props.C123_on_time_partial",
    "Verif.Props.C123_end_fails",
    "Verif.Props.C123_late_fails"
   ],
   "note": "Proved: what is printed of a period is final (`C123_final`), which periods a tick prints (`C123_which`), and that a measurement is printed if a tick comes in time (`C123_reported_partial`, `C123_on_time_partial`). False: that all measurements are printed. Those of the last period of a program never are (`C123_end_fails`), nor those that five later periods push out before a tick (`C123_late_fails`)."
  },
  {
   "property": "C124",
   "status": "partial",
   "theorems": [
    "Verif.Props.C124_printed",
    "Verif.Props.C124_written_partial",
    "Verif.Props.C124_exit",
    "Verif.Props.C124_server_partial",
    "Verif.Props.C124_encode_fails"
   ],
   "note": "Proved: what is printed (`C124_printed`), also of the report on the server if the copy is not recent (`C124_server_partial`), what is written if the encoder has no error (`C124_written_partial`), and the exit status (`C124_exit`). False without that condition: an error of the encoder is not returned, the program exits with 0 and leaves an incomplete file (`C124_encode_fails`)."
  }
 ]
}