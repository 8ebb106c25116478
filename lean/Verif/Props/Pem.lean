import Verif.Lemmas.Pem
import Verif.Model.Script
import Verif.Model.Client
/-!
Property C105: textual armour.
-/
namespace Verif.Props
open Verif Verif.Spec

/-! ### labels and markers -/

theorem label_no {l : Text} (h : Label l) : '-' ∉ l ∧ ':' ∉ l ∧ '\n' ∉ l ∧ '\r' ∉ l := by
  refine ⟨fun hm => (h.2 _ hm).2.2.1 rfl, fun hm => (h.2 _ hm).2.2.2 rfl, fun hm => ?_, fun hm => ?_⟩
  · exact absurd (h.2 _ hm).1 (by decide)
  · exact absurd (h.2 _ hm).1 (by decide)

theorem hasMarker_begin {t : Text} : HasMarker t ↔ ∃ a b, t = a ++ pemBegin ++ b := Iff.rfl

/-- The line end closes the first line. -/
theorem cut_newline (x y : Text) : ∃ q r, cutAt ['\n'] (x ++ '\n' :: y) = some (q, r) ∧ ∀ c ∈ q, c ∈ x := by
  induction x with
  | nil => exact ⟨[], y, cutAt_here '\n' [] y, fun c hc => absurd hc (by simp)⟩
  | cons a x ih =>
    obtain ⟨q, r, h1, h2⟩ := ih
    rw [List.cons_append, cutAt_cons]
    split
    · exact ⟨[], _, rfl, fun c hc => absurd hc (by simp)⟩
    · rw [h1]
      refine ⟨a :: q, r, rfl, ?_⟩
      intro c hc
      rcases List.mem_cons.1 hc with rfl | hc
      · exact List.mem_cons_self
      · exact List.mem_cons_of_mem _ (h2 c hc)

theorem mem_trimBlanks {t : Text} {c : Char} (h : c ∈ trimBlanks t) : c ∈ t := by
  obtain ⟨j, hj⟩ := trimBlanks_sound t
  rw [hj]
  exact List.mem_append_left _ h

theorem mem_dropCR {t : Text} {c : Char} (h : c ∈ dropCR t) : c ∈ t := by
  obtain ⟨j, hj⟩ := dropCR_sound t
  rw [hj]
  exact List.mem_append_left _ h

theorem pemLine_chars (x y : Text) {c : Char} (h : c ∈ (pemLine (x ++ '\n' :: y)).1) : c ∈ x := by
  obtain ⟨q, r, h1, h2⟩ := cut_newline x y
  unfold pemLine at h
  rw [h1] at h
  exact h2 c (mem_dropCR (mem_trimBlanks h))

theorem pemLine_mem (t : Text) {c : Char} (h : c ∈ (pemLine t).1) : c ∈ t := by
  obtain ⟨j, hj⟩ := pemLine_sound t
  rw [hj]
  exact List.mem_append_left _ (List.mem_append_left _ h)

/-! ### one block -/

/-- What follows the end marker: nothing, or the end of the line. -/
def Closed (tail : Text) : Prop := tail = [] ∨ ∃ f post, LineEnd f ∧ tail = f ++ post

theorem closed_line {tail : Text} (h : Closed tail) : (pemLine tail).1 = [] := by
  rcases h with rfl | ⟨f, post, hf, rfl⟩
  · rfl
  · exact pemLine_end f post hf

theorem no_colon {l body b64 tail : Text} {bs : Bytes} (hl : Label l) (hb : Base64 bs b64) (hi : InLines b64 body) (ht : Closed tail) :
    ':' ∉ (pemLine (body ++ pemEnd ++ l ++ pemDashes ++ tail)).1 := by
  intro hm
  have hbody : ':' ∉ body := by
    intro h
    rcases inLines_chars hi _ h with h | h | h
    · exact (base64_safe hb _ h).2.2.1 rfl
    · exact absurd h (by decide)
    · exact absurd h (by decide)
  have hx : ':' ∉ pemEnd ++ l ++ pemDashes := by
    intro h
    rcases List.mem_append.1 h with h | h
    · rcases List.mem_append.1 h with h | h
      · exact absurd h (by decide)
      · exact (label_no hl).2.1 h
    · exact absurd h (by decide)
  rcases inLines_last hi with ⟨_, rfl⟩ | ⟨pre, rfl⟩
  · rw [List.nil_append] at hm
    rcases ht with rfl | ⟨f, post, hf, rfl⟩
    · rw [List.append_nil] at hm
      exact hx (pemLine_mem _ hm)
    · rcases hf with rfl | rfl
      · exact hx (pemLine_chars _ post hm)
      · have e : pemEnd ++ l ++ pemDashes ++ (['\r', '\n'] ++ post) = (pemEnd ++ l ++ pemDashes ++ ['\r']) ++ '\n' :: post := by simp
        rw [e] at hm
        have := pemLine_chars _ post hm
        rcases List.mem_append.1 this with h | h
        · exact hx h
        · exact absurd h (by decide)
  · have e : pre ++ ['\n'] ++ pemEnd ++ l ++ pemDashes ++ tail = pre ++ '\n' :: (pemEnd ++ l ++ pemDashes ++ tail) := by simp
    rw [e] at hm
    exact hbody (List.mem_append_left _ (pemLine_chars _ _ hm))

theorem pemSplit_block {body b64 rest : Text} {bs : Bytes} (hb : Base64 bs b64) (hi : InLines b64 body) :
    ∃ q, pemSplit false (body ++ pemEnd ++ rest) = some (q, rest) ∧ q.filter (fun c => !isSpacing c) = b64 := by
  have hs := base64_safe hb
  have hfil : body.filter (fun c => !isSpacing c) = b64 :=
    inLines_filter _ (by decide) (by decide) hi (fun c hc => by rw [(hs c hc).2.2.2.2.2.1]; rfl)
  rcases inLines_last hi with ⟨rfl, rfl⟩ | ⟨pre, rfl⟩
  · refine ⟨[], ?_, rfl⟩
    have hp : pemEnd.isPrefixOf ([] ++ pemEnd ++ rest) = true := List.isPrefixOf_iff_prefix.2 (List.prefix_append _ _)
    unfold pemSplit
    rw [if_pos ⟨rfl, hp⟩, List.nil_append, List.drop_left]
  · refine ⟨pre, ?_, ?_⟩
    · have hnp : ¬ pemEnd.isPrefixOf (pre ++ ['\n'] ++ pemEnd ++ rest) = true := by
        intro h
        rcases inLines_head hi hs with h0 | ⟨c, r, h0, hc⟩
        · exact absurd h0 (by simp)
        · rw [h0] at h
          have h1 := List.isPrefixOf_iff_prefix.1 h
          have e : pemEnd = '-' :: "----END ".toList := by decide
          rw [e, List.cons_append, List.cons_append] at h1
          exact hc.2.1 (List.cons_prefix_cons.1 h1).1.symm
      unfold pemSplit
      rw [if_neg (fun h => hnp h.2)]
      have e : pre ++ ['\n'] ++ pemEnd ++ rest = pre ++ ('\n' :: pemEnd) ++ rest := by simp
      rw [e]
      refine cutAt_first '\n' pemEnd pre rest (by decide) ?_
      intro a b hab
      have hd : '-' ∈ pre ++ ['\n'] := by
        rw [hab]
        have : '-' ∈ pemEnd := by decide
        simp [this]
      rcases inLines_chars hi _ hd with h | h | h
      · exact (hs _ h).2.1 rfl
      · exact absurd h (by decide)
      · exact absurd h (by decide)
    · rw [List.filter_append] at hfil
      have : (['\n'] : Text).filter (fun c => !isSpacing c) = [] := by decide
      rw [this, List.append_nil] at hfil
      exact hfil

theorem pemBody_block {l body b64 tail : Text} {bs : Bytes} (hb : Base64 bs b64) (hi : InLines b64 body) (ht : Closed tail) :
    pemBody l false (body ++ pemEnd ++ l ++ pemDashes ++ tail) = some bs := by
  have e : body ++ pemEnd ++ l ++ pemDashes ++ tail = body ++ pemEnd ++ (l ++ pemDashes ++ tail) := by simp
  obtain ⟨q, h1, h2⟩ := pemSplit_block (rest := l ++ pemDashes ++ tail) hb hi
  unfold pemBody
  rw [e, h1]
  dsimp only
  have hp : (l ++ pemDashes).isPrefixOf (l ++ pemDashes ++ tail) = true := List.isPrefixOf_iff_prefix.2 (List.prefix_append _ _)
  have hl : (pemLine ((l ++ pemDashes ++ tail).drop (l ++ pemDashes).length)).1 = [] := by
    rw [List.drop_left]
    exact closed_line ht
  rw [if_pos ⟨hp, hl⟩, h2, base64_encode hb]
  exact b64Decode_b64Encode false bs

theorem pemLoop_block (n : Nat) {t l body b64 e tail : Text} {bs : Bytes} (hl : Label l) (hb : Base64 bs b64) (he : LineEnd e) (hi : InLines b64 body)
    (ht : Closed tail) (hf : pemFind t = some (l ++ pemDashes ++ e ++ (body ++ pemEnd ++ l ++ pemDashes ++ tail))) :
    pemLoop (n + 1) t = some (l, bs) := by
  obtain ⟨h1, h2, h3, h4⟩ := label_no hl
  have hline : pemLine (l ++ pemDashes ++ e ++ (body ++ pemEnd ++ l ++ pemDashes ++ tail)) = (l ++ pemDashes, body ++ pemEnd ++ l ++ pemDashes ++ tail) := by
    refine pemLine_ended _ e _ ?_ ?_ he ?_
    · intro h
      rcases List.mem_append.1 h with h | h
      · exact h3 h
      · exact absurd h (by decide)
    · intro h
      rcases List.mem_append.1 h with h | h
      · exact h4 h
      · exact absurd h (by decide)
    · intro c hc
      have : (l ++ pemDashes).getLast? = some '-' := by
        have e : l ++ pemDashes = (l ++ "----".toList) ++ ['-'] := by
          rw [List.append_assoc]
          congr 1
        rw [e, List.getLast?_concat]
      rw [this] at hc
      injection hc with hc
      subst hc
      decide
  have hsuf : pemDashes.isSuffixOf (l ++ pemDashes) = true := List.isSuffixOf_iff_suffix.2 (List.suffix_append _ _)
  have htake : (l ++ pemDashes).take ((l ++ pemDashes).length - 5) = l := by
    have : (l ++ pemDashes).length - 5 = l.length := by
      rw [List.length_append]
      have : pemDashes.length = 5 := by decide
      omega
    rw [this, List.take_left]
  have hhead : pemHeaders ((body ++ pemEnd ++ l ++ pemDashes ++ tail).length + 1) false (body ++ pemEnd ++ l ++ pemDashes ++ tail) =
      some (false, body ++ pemEnd ++ l ++ pemDashes ++ tail) := by
    unfold pemHeaders
    have hne : body ++ pemEnd ++ l ++ pemDashes ++ tail ≠ [] := by
      intro h
      have := congrArg List.length h
      simp only [List.length_append, List.length_nil] at this
      have e : pemDashes.length = 5 := by decide
      omega
    rw [if_neg hne, if_neg (no_colon hl hb hi ht)]
  unfold pemLoop
  rw [hf]
  dsimp only
  rw [hline]
  dsimp only
  rw [if_pos hsuf, hhead]
  dsimp only
  rw [htake, pemBody_block hb hi ht]

/-! ### armour at the start of a text -/

theorem pemFind_start (u : Text) : pemFind (pemBegin ++ u) = some u := by
  unfold pemFind
  have h : pemBegin.isPrefixOf (pemBegin ++ u) = true := List.isPrefixOf_iff_prefix.2 (List.prefix_append _ _)
  rw [if_pos h, List.drop_left]

theorem closed_end {f : Text} (h : f = [] ∨ LineEnd f) : Closed f := by
  rcases h with h | h
  · exact Or.inl h
  · exact Or.inr ⟨f, [], h, by simp⟩

theorem closed_more {f : Text} (h : f = [] ∨ LineEnd f) (post : Text) : Closed (f ++ '\n' :: post) := by
  rcases h with rfl | h
  · exact Or.inr ⟨['\n'], post, Or.inl rfl, rfl⟩
  · exact Or.inr ⟨f, '\n' :: post, h, rfl⟩

theorem armour_shape {l t : Text} {bs : Bytes} (h : Armour l bs t) : ∃ b64 e body f, Base64 bs b64 ∧ LineEnd e ∧ InLines b64 body ∧ (f = [] ∨ LineEnd f) ∧
    t = pemBegin ++ (l ++ pemDashes ++ e ++ (body ++ pemEnd ++ l ++ pemDashes ++ f)) := by
  obtain ⟨_, b64, e, body, f, h1, h2, h3, h4, rfl⟩ := h
  refine ⟨b64, e, body, f, h1, h2, h3, h4, ?_⟩
  show pemBegin ++ l ++ pemDashes ++ e ++ body ++ pemEnd ++ l ++ pemDashes ++ f = _
  simp

theorem pemDecode_armour {l t : Text} {bs : Bytes} (h : Armour l bs t) : pemDecode t = some (l, bs) := by
  obtain ⟨b64, e, body, f, h1, h2, h3, h4, rfl⟩ := armour_shape h
  unfold pemDecode
  exact pemLoop_block _ h.1 h1 h2 h3 (closed_end h4) (pemFind_start _)

/-! ### the Rust crate -/

theorem skip_lineEnd {e x : Text} (he : LineEnd e) (hx : ∀ c, x.head? = some c → isSpacing c = false) : skipSpacing (e ++ x) = x := by
  have h0 : x.dropWhile isSpacing = x := by
    cases x with
    | nil => rfl
    | cons c r =>
      rw [List.dropWhile_cons, hx c rfl]
      rfl
  have hn : isSpacing '\n' = true := by decide
  have hr : isSpacing '\r' = true := by decide
  unfold skipSpacing
  rcases he with rfl | rfl
  · rw [List.cons_append, List.nil_append, List.dropWhile_cons, hn, if_pos rfl, h0]
  · rw [List.cons_append, List.cons_append, List.nil_append, List.dropWhile_cons, hr, if_pos rfl, List.dropWhile_cons, hn, if_pos rfl, h0]

theorem rust_block {t x l body b64 e tail : Text} {bs : Bytes} (hl : Label l) (hb : Base64 bs b64) (he : LineEnd e) (hi : InLines b64 body)
    (hf : cutAt pemBegin t = some (x, l ++ pemDashes ++ (e ++ (body ++ pemEnd ++ (l ++ pemDashes ++ tail))))) : rustPem t = some (l, bs) := by
  obtain ⟨h1, h2, h3, h4⟩ := label_no hl
  have hs := base64_safe hb
  have hbody : ∀ c ∈ body, c ≠ '-' ∧ c.toNat < 128 := by
    intro c hc
    rcases inLines_chars hi _ hc with h | rfl | rfl
    · exact ⟨(hs _ h).2.1, (hs _ h).2.2.2.2.2.2.2⟩
    · exact ⟨by decide, by decide⟩
    · exact ⟨by decide, by decide⟩
  have e1 : cutAt pemDashes (l ++ pemDashes ++ (e ++ (body ++ pemEnd ++ (l ++ pemDashes ++ tail)))) = some (l, e ++ (body ++ pemEnd ++ (l ++ pemDashes ++ tail))) :=
    cutAt_fresh '-' "----".toList l _ h1
  have e2 : skipSpacing (e ++ (body ++ pemEnd ++ (l ++ pemDashes ++ tail))) = body ++ pemEnd ++ (l ++ pemDashes ++ tail) := by
    refine skip_lineEnd he ?_
    intro c hc
    rcases inLines_head hi hs with rfl | ⟨d, r, rfl, hd⟩
    · have hc' : some '-' = some c := hc
      injection hc' with hc'
      subst hc'
      decide
    · have hc' : some d = some c := hc
      injection hc' with hc'
      subst hc'
      exact hd.2.2.2.2.2.1
  have e3 : cutAt pemEnd (body ++ pemEnd ++ (l ++ pemDashes ++ tail)) = some (body, l ++ pemDashes ++ tail) :=
    cutAt_fresh '-' "----END ".toList body _ (fun h => (hbody _ h).1 rfl)
  have e4 : cutAt pemDashes (l ++ pemDashes ++ tail) = some (l, tail) := cutAt_fresh '-' "----".toList l tail h1
  unfold rustPem
  rw [hf]
  dsimp only
  rw [e1]
  dsimp only
  rw [e2, e3]
  dsimp only
  rw [e4]
  dsimp only
  unfold rustBlock
  have hc : ¬ (l = [] ∨ l ≠ l ∨ (l ++ body).any (fun c => decide (128 ≤ c.toNat)) = true) := by
    rintro (h | h | h)
    · exact hl.1 h
    · exact h rfl
    · rw [List.any_eq_true] at h
      obtain ⟨c, hc, h⟩ := h
      have h := of_decide_eq_true h
      rcases List.mem_append.1 hc with hc | hc
      · have := (hl.2 c hc).2.1
        omega
      · have := (hbody c hc).2
        omega
  rw [if_neg hc, inLines_rustData hi hs, base64_encode hb, b64Decode_b64Encode]
  rfl

theorem rustPem_armour {l t : Text} {bs : Bytes} (h : Armour l bs t) : rustPem t = some (l, bs) := by
  obtain ⟨b64, e, body, f, h1, h2, h3, h4, rfl⟩ := armour_shape h
  refine rust_block (x := []) (tail := f) h.1 h1 h2 h3 ?_
  have : l ++ pemDashes ++ e ++ (body ++ pemEnd ++ l ++ pemDashes ++ f) = l ++ pemDashes ++ (e ++ (body ++ pemEnd ++ (l ++ pemDashes ++ f))) := by simp
  rw [this]
  exact cutAt_here '-' "----BEGIN ".toList _

/-! ### the publisher -/

theorem asciiPem_armour {t : Text} {bs : Bytes} (h : Armour certLabel bs t) : asciiPemToDer t = some bs := by
  obtain ⟨b64, e, body, f, h1, h2, h3, h4, rfl⟩ := armour_shape h
  have hs := base64_safe h1
  have e0 : pemBegin ++ (certLabel ++ pemDashes ++ e ++ (body ++ pemEnd ++ certLabel ++ pemDashes ++ f)) =
      (pemBegin ++ certLabel ++ pemDashes) ++ (e ++ body ++ (pemEnd ++ certLabel ++ pemDashes) ++ f) := by simp
  have e1 : cutAt (pemBegin ++ certLabel ++ pemDashes) ((pemBegin ++ certLabel ++ pemDashes) ++ (e ++ body ++ (pemEnd ++ certLabel ++ pemDashes) ++ f)) =
      some ([], e ++ body ++ (pemEnd ++ certLabel ++ pemDashes) ++ f) := cutAt_here '-' ("----BEGIN ".toList ++ certLabel ++ pemDashes) _
  have hno : '-' ∉ e ++ body := by
    intro h
    rcases List.mem_append.1 h with h | h
    · rcases lineEnd_chars h2 _ h with h | h
      · exact absurd h (by decide)
      · exact absurd h (by decide)
    · rcases inLines_chars h3 _ h with h | h | h
      · exact (hs _ h).2.1 rfl
      · exact absurd h (by decide)
      · exact absurd h (by decide)
  have e2 : cutAt (pemEnd ++ certLabel ++ pemDashes) (e ++ body ++ (pemEnd ++ certLabel ++ pemDashes) ++ f) = some (e ++ body, f) :=
    cutAt_fresh '-' ("----END ".toList ++ certLabel ++ pemDashes) _ _ hno
  have hfil : (e ++ body).filter isB64 = b64 := by
    rw [List.filter_append, inLines_filter isB64 (by decide) (by decide) h3 (fun c hc => (hs c hc).1)]
    rcases h2 with rfl | rfl
    · rfl
    · rfl
  unfold asciiPemToDer
  rw [e0, e1]
  dsimp only
  rw [e2]
  dsimp only
  rw [hfil, base64_encode h1, b64Decode_b64Encode]

/-! ### what the programs write -/

theorem pemLines_inLines : ∀ (n : Nat) (t : Text), t.length ≤ n → InLines t (pemLines n t)
  | 0, t, h => by
    have : t = [] := List.length_eq_zero_iff.1 (by omega)
    subst this
    exact InLines.nil
  | n + 1, t, h => by
    unfold pemLines
    split
    · rename_i e
      rw [e]
      exact InLines.nil
    · rename_i hne
      have hlen : 0 < t.length := by
        cases t with
        | nil => exact absurd rfl hne
        | cons c r => simp
      have h1 : t.take 64 ≠ [] := by
        intro e
        have := congrArg List.length e
        simp only [List.length_take, List.length_nil] at this
        omega
      have h2 := pemLines_inLines n (t.drop 64) (by rw [List.length_drop]; omega)
      have h3 := InLines.cons (e := ['\n']) h1 (Or.inl rfl) h2
      rw [List.take_append_drop] at h3
      have e : t.take 64 ++ '\n' :: pemLines n (t.drop 64) = t.take 64 ++ ['\n'] ++ pemLines n (t.drop 64) := by simp
      rw [e]
      exact h3

theorem pemEncode_armour {l : Text} (bs : Bytes) (hl : Label l) : Armour l bs (pemEncode l bs) := by
  refine ⟨hl, b64Encode false bs, ['\n'], pemLines (b64Encode false bs).length (b64Encode false bs), ['\n'], encode_base64 bs, Or.inl rfl,
    pemLines_inLines _ _ (Nat.le_refl _), Or.inr (Or.inl rfl), ?_⟩
  unfold pemEncode
  show _ = pemBegin ++ l ++ pemDashes ++ ['\n'] ++ pemLines (b64Encode false bs).length (b64Encode false bs) ++ pemEnd ++ l ++ pemDashes ++ ['\n']
  simp

theorem certLabel_label : Label certLabel := ⟨by decide, by decide⟩

theorem trim_marks (p : Char → Bool) (x : Text) (hd : p '-' = false) (hn : p '\n' = true) : trimBoth p ('-' :: (x ++ ['-'] ++ ['\n'])) = '-' :: (x ++ ['-']) := by
  unfold trimBoth
  rw [List.dropWhile_cons, hd]
  rw [if_neg (by simp)]
  have e : ('-' :: (x ++ ['-'] ++ ['\n'])).reverse = '\n' :: '-' :: ('-' :: x).reverse := by simp
  rw [e, List.dropWhile_cons, hn, if_pos rfl, List.dropWhile_cons, hd, if_neg (by simp)]
  simp

theorem trim_armour (p : Char → Bool) (x : Text) (hd : p '-' = false) (hn : p '\n' = true) :
    trimBoth p (pemBegin ++ x ++ pemDashes ++ ['\n']) = pemBegin ++ x ++ pemDashes := by
  have hB : pemBegin = '-' :: "----BEGIN ".toList := by decide
  have hD : pemDashes = "----".toList ++ ['-'] := by decide
  rw [hB, hD]
  generalize "----BEGIN ".toList = b
  generalize "----".toList = d
  have e : '-' :: b ++ x ++ (d ++ ['-']) ++ ['\n'] = '-' :: ((b ++ x ++ d) ++ ['-'] ++ ['\n']) := by simp only [List.append_assoc, List.cons_append]
  rw [e, trim_marks p _ hd hn]
  simp only [List.append_assoc, List.cons_append]

theorem certificateToPem_eq (raw : Bytes) : certificateToPem raw =
    pemBegin ++ (certLabel ++ pemDashes ++ '\n' :: pemLines (b64Encode false raw).length (b64Encode false raw) ++ pemEnd ++ certLabel) ++ pemDashes := by
  have e : pemEncode certLabel raw =
      pemBegin ++ (certLabel ++ pemDashes ++ '\n' :: pemLines (b64Encode false raw).length (b64Encode false raw) ++ pemEnd ++ certLabel) ++ pemDashes ++ ['\n'] := by
    unfold pemEncode
    generalize pemBegin = b
    generalize pemEnd = d
    generalize pemDashes = f
    generalize certLabel = l
    simp only [List.append_assoc, List.cons_append]
  unfold certificateToPem
  rw [e, trim_armour isAsciiSpace _ (by decide) (by decide)]

/-! ### hidden blocks -/

/-- A marker that follows a newline, with no marker before it. -/
theorem cutAt_newline (pat pre t : Text) (hp : '\n' ∉ pat) (hne : pat ≠ []) (h : ∀ a b, pre ≠ a ++ pat ++ b) :
    cutAt pat (pre ++ '\n' :: (pat ++ t)) = some (pre ++ ['\n'], t) := by
  induction pre with
  | nil =>
    cases pat with
    | nil => exact absurd rfl hne
    | cons p ps =>
      have hn : ¬ (p :: ps).isPrefixOf ('\n' :: ((p :: ps) ++ t)) = true := by
        intro hh
        have := (List.cons_prefix_cons.1 (List.isPrefixOf_iff_prefix.1 hh)).1
        exact hp (by rw [this]; exact List.mem_cons_self)
      rw [List.nil_append, cutAt_cons, if_neg hn, cutAt_here]
      rfl
  | cons c pre ih =>
    have hn : ¬ pat.isPrefixOf (c :: (pre ++ '\n' :: (pat ++ t))) = true := by
      intro hh
      obtain ⟨r, hr⟩ := List.isPrefixOf_iff_prefix.1 hh
      have hr' : pat ++ r = (c :: pre) ++ ('\n' :: (pat ++ t)) := by rw [hr]; simp
      rcases List.append_eq_append_iff.1 hr' with ⟨a, h1, h2⟩ | ⟨a, h1, h2⟩
      · exact h [] a (by rw [h1]; simp)
      · cases a with
        | nil => exact h [] [] (by rw [List.append_nil] at h1; rw [← h1]; simp)
        | cons x a =>
          have hx : x = '\n' := by
            simp only [List.cons_append, List.cons.injEq] at h2
            exact h2.1.symm
          subst hx
          exact hp (by rw [h1]; simp)
    rw [List.cons_append, cutAt_cons, if_neg hn, ih (fun a b e => h (c :: a) b (by rw [e]; simp))]
    rfl

theorem pemDecode_hidden {l a pre post : Text} {bs : Bytes} (h : Armour l bs a) (hn : ¬ HasMarker pre) :
    pemDecode (pre ++ '\n' :: (a ++ '\n' :: post)) = some (l, bs) := by
  obtain ⟨b64, e, body, f, h1, h2, h3, h4, rfl⟩ := armour_shape h
  have hno : ∀ x y, pre ≠ x ++ pemBegin ++ y := fun x y hxy => hn ⟨x, y, hxy⟩
  have hfind : pemFind (pre ++ '\n' :: (pemBegin ++ (l ++ pemDashes ++ e ++ (body ++ pemEnd ++ l ++ pemDashes ++ f)) ++ '\n' :: post)) =
      some (l ++ pemDashes ++ e ++ (body ++ pemEnd ++ l ++ pemDashes ++ (f ++ '\n' :: post))) := by
    have hnp : ¬ pemBegin.isPrefixOf (pre ++ '\n' :: (pemBegin ++ (l ++ pemDashes ++ e ++ (body ++ pemEnd ++ l ++ pemDashes ++ f)) ++ '\n' :: post)) = true := by
      intro hh
      obtain ⟨r, hr⟩ := List.isPrefixOf_iff_prefix.1 hh
      rcases List.append_eq_append_iff.1 hr with ⟨x, e1, e2⟩ | ⟨x, e1, e2⟩
      · exact hno [] x (by rw [e1]; simp)
      · cases x with
        | nil => exact hno [] [] (by rw [List.append_nil] at e1; rw [← e1]; simp)
        | cons y x =>
          have hy : y = '\n' := by
            simp only [List.cons_append, List.cons.injEq] at e2
            exact e2.1.symm
          subst hy
          have : '\n' ∈ pemBegin := by rw [e1]; simp
          exact absurd this (by decide)
    unfold pemFind
    rw [if_neg hnp]
    have e1 : pre ++ '\n' :: (pemBegin ++ (l ++ pemDashes ++ e ++ (body ++ pemEnd ++ l ++ pemDashes ++ f)) ++ '\n' :: post) =
        pre ++ ('\n' :: pemBegin) ++ (l ++ pemDashes ++ e ++ (body ++ pemEnd ++ l ++ pemDashes ++ (f ++ '\n' :: post))) := by simp
    rw [e1, cutAt_first '\n' pemBegin pre _ (by decide) (fun x y hxy => hno (x ++ ['\n']) y (by rw [hxy]; simp))]
    rfl
  unfold pemDecode
  exact pemLoop_block _ h.1 h1 h2 h3 (closed_more h4 post) hfind

theorem rustPem_hidden {l a pre post : Text} {bs : Bytes} (h : Armour l bs a) (hn : ¬ HasMarker pre) :
    rustPem (pre ++ '\n' :: (a ++ '\n' :: post)) = some (l, bs) := by
  obtain ⟨b64, e, body, f, h1, h2, h3, h4, rfl⟩ := armour_shape h
  refine rust_block (x := pre ++ ['\n']) (tail := f ++ '\n' :: post) h.1 h1 h2 h3 ?_
  have e1 : pre ++ '\n' :: (pemBegin ++ (l ++ pemDashes ++ e ++ (body ++ pemEnd ++ l ++ pemDashes ++ f)) ++ '\n' :: post) =
      pre ++ '\n' :: (pemBegin ++ (l ++ pemDashes ++ (e ++ (body ++ pemEnd ++ (l ++ pemDashes ++ (f ++ '\n' :: post)))))) := by simp
  rw [e1]
  exact cutAt_newline pemBegin pre _ (by decide) (by decide) (fun x y hxy => hn ⟨x, y, hxy⟩)

/-! ### texts without a marker -/

theorem pemFind_marker {t u : Text} (h : pemFind t = some u) : ∃ a, t = a ++ pemBegin ++ u := by
  unfold pemFind at h
  split at h
  · rename_i hp
    obtain ⟨r, hr⟩ := List.isPrefixOf_iff_prefix.1 hp
    injection h with h
    rw [← hr, List.drop_left] at h
    exact ⟨[], by rw [← hr, h]; simp⟩
  · cases hc : cutAt ('\n' :: pemBegin) t with
    | none => rw [hc] at h; cases h
    | some p =>
      rw [hc] at h
      injection h with h
      have := cutAt_sound _ _ _ hc
      rw [h] at this
      exact ⟨p.1 ++ ['\n'], by rw [this]; simp⟩

theorem no_marker {t : Text} (h : ¬ HasMarker t) : pemDecode t = none ∧ rustPem t = none := by
  constructor
  · unfold pemDecode pemLoop
    cases hf : pemFind t with
    | none => rfl
    | some u =>
      obtain ⟨a, ha⟩ := pemFind_marker hf
      exact absurd ⟨a, u, ha⟩ h
  · unfold rustPem
    cases hf : cutAt pemBegin t with
    | none => rfl
    | some p =>
      have := cutAt_sound _ _ _ hf
      exact absurd ⟨p.1, p.2, this⟩ h

/-! ### what is found is there -/

theorem pemHeaders_sound : ∀ (n : Nat) (any : Bool) (t : Text) (h : Bool × Text), pemHeaders n any t = some h → ∃ j, t = j ++ h.2
  | 0, _, _, _, h => by cases h
  | n + 1, any, t, h, e => by
    unfold pemHeaders at e
    split at e
    · cases e
    · split at e
      · obtain ⟨j, hj⟩ := pemHeaders_sound n true (pemLine t).2 h e
        obtain ⟨k, hk⟩ := pemLine_sound t
        exact ⟨(pemLine t).1 ++ k ++ j, by rw [List.append_assoc, ← hj]; exact hk⟩
      · injection e with e
        exact ⟨[], by rw [← e]; rfl⟩

theorem pemSplit_sound {any : Bool} {t : Text} {p : Text × Text} (h : pemSplit any t = some p) : ∃ j, t = p.1 ++ j ++ pemEnd ++ p.2 ∧ (j = [] ∨ j = ['\n']) := by
  unfold pemSplit at h
  split at h
  · rename_i hp
    obtain ⟨r, hr⟩ := List.isPrefixOf_iff_prefix.1 hp.2
    injection h with h
    rw [← h, ← hr, List.drop_left]
    exact ⟨[], by simp, Or.inl rfl⟩
  · have := cutAt_sound _ _ _ h
    exact ⟨['\n'], by rw [this]; simp, Or.inr rfl⟩

theorem pemBody_sound {l : Text} {any : Bool} {t : Text} {bs : Bytes} (h : pemBody l any t = some bs) :
    ∃ data post, t = data ++ pemEnd ++ l ++ pemDashes ++ post ∧ b64Decode false (data.filter (fun c => !isSpacing c)) = some bs := by
  unfold pemBody at h
  split at h
  · cases h
  · rename_i p hp
    split at h
    · rename_i hc
      obtain ⟨j, hj, hj'⟩ := pemSplit_sound hp
      obtain ⟨r, hr⟩ := List.isPrefixOf_iff_prefix.1 hc.1
      refine ⟨p.1 ++ j, r, ?_, ?_⟩
      · calc t = p.1 ++ j ++ pemEnd ++ p.2 := hj
          _ = p.1 ++ j ++ pemEnd ++ (l ++ pemDashes ++ r) := by rw [hr]
          _ = _ := by simp
      · rw [List.filter_append]
        have : j.filter (fun c => !isSpacing c) = [] := by
          rcases hj' with rfl | rfl <;> decide
        rw [this, List.append_nil]
        exact h
    · cases h

theorem pemLoop_sound : ∀ (n : Nat) (t l : Text) (bs : Bytes), pemLoop n t = some (l, bs) →
    ∃ pre hdr data post, t = pre ++ pemBegin ++ l ++ pemDashes ++ hdr ++ data ++ pemEnd ++ l ++ pemDashes ++ post ∧
      b64Decode false (data.filter (fun c => !isSpacing c)) = some bs
  | 0, _, _, _, h => by cases h
  | n + 1, t, l, bs, h => by
    unfold pemLoop at h
    cases hf : pemFind t with
    | none => rw [hf] at h; cases h
    | some u =>
      rw [hf] at h
      dsimp only at h
      obtain ⟨a, ha⟩ := pemFind_marker hf
      obtain ⟨k, hk⟩ := pemLine_sound u
      split at h
      · rename_i hs
        obtain ⟨ty, hty⟩ := List.isSuffixOf_iff_suffix.1 hs
        have htake : (pemLine u).1.take ((pemLine u).1.length - 5) = ty := by
          rw [← hty]
          have : (ty ++ pemDashes).length - 5 = ty.length := by
            rw [List.length_append]
            have : pemDashes.length = 5 := by decide
            omega
          rw [this, List.take_left]
        rw [htake] at h
        split at h
        · cases h
        · rename_i hd hh
          obtain ⟨j, hj⟩ := pemHeaders_sound _ _ _ _ hh
          split at h
          · rename_i bs' hb
            injection h with h
            injection h with h1 h2
            subst h1 h2
            obtain ⟨data, post, e1, e2⟩ := pemBody_sound hb
            refine ⟨a, k ++ j, data, post, ?_, e2⟩
            rw [ha, hk, ← hty, hj, e1]
            simp
          · obtain ⟨pre, hdr, data, post, e1, e2⟩ := pemLoop_sound n hd.2 l bs h
            refine ⟨a ++ pemBegin ++ (pemLine u).1 ++ k ++ j ++ pre, hdr, data, post, ?_, e2⟩
            have hu : u = (pemLine u).1 ++ k ++ (j ++ hd.2) := by rw [← hj]; exact hk
            calc t = a ++ pemBegin ++ u := ha
              _ = a ++ pemBegin ++ ((pemLine u).1 ++ k ++ (j ++ hd.2)) := by rw [← hu]
              _ = a ++ pemBegin ++ ((pemLine u).1 ++ k ++ (j ++ (pre ++ pemBegin ++ l ++ pemDashes ++ hdr ++ data ++ pemEnd ++ l ++ pemDashes ++ post))) := by rw [← e1]
              _ = _ := by simp
      · obtain ⟨pre, hdr, data, post, e1, e2⟩ := pemLoop_sound n (pemLine u).2 l bs h
        refine ⟨a ++ pemBegin ++ (pemLine u).1 ++ k ++ pre, hdr, data, post, ?_, e2⟩
        calc t = a ++ pemBegin ++ u := ha
          _ = a ++ pemBegin ++ ((pemLine u).1 ++ k ++ (pemLine u).2) := by rw [← hk]
          _ = a ++ pemBegin ++ ((pemLine u).1 ++ k ++ (pre ++ pemBegin ++ l ++ pemDashes ++ hdr ++ data ++ pemEnd ++ l ++ pemDashes ++ post)) := by rw [← e1]
          _ = _ := by simp

/-! ### octets -/

/-- The octets of an ASCII text. -/
def asciiOctets (t : Text) : Bytes := t.map (fun c => UInt8.ofNat c.toNat)

theorem octetText_append (a b : Bytes) : octetText (a ++ b) = octetText a ++ octetText b := List.map_append

theorem octetText_ascii (t : Text) (h : ∀ c ∈ t, c.toNat < 128) : octetText (asciiOctets t) = t := by
  unfold octetText asciiOctets
  rw [List.map_map]
  conv => rhs; rw [← List.map_id t]
  refine List.map_congr_left ?_
  intro c hc
  have hlt := h c hc
  show Char.ofNat (UInt8.ofNat c.toNat).toNat = c
  have e : (UInt8.ofNat c.toNat).toNat = c.toNat := by
    rw [UInt8.toNat_ofNat']
    omega
  rw [e]
  exact Char.ofNat_toNat c

theorem armour_ascii {l t : Text} {bs : Bytes} (h : Armour l bs t) : ∀ c ∈ t, c.toNat < 128 := by
  obtain ⟨b64, e, body, f, h1, h2, h3, h4, rfl⟩ := armour_shape h
  have hB : ∀ c ∈ pemBegin, c.toNat < 128 := by decide
  have hE : ∀ c ∈ pemEnd, c.toNat < 128 := by decide
  have hD : ∀ c ∈ pemDashes, c.toNat < 128 := by decide
  have hl : ∀ c ∈ l, c.toNat < 128 := by
    intro c hc
    have := (h.1.2 c hc).2.1
    omega
  have he : ∀ x : Text, LineEnd x → ∀ c ∈ x, c.toNat < 128 := by
    intro x hx c hc
    rcases lineEnd_chars hx c hc with rfl | rfl <;> decide
  intro c hc
  simp only [List.mem_append] at hc
  rcases hc with hc | ((hc | hc) | hc) | (((hc | hc) | hc) | hc) | hc
  · exact hB c hc
  · exact hl c hc
  · exact hD c hc
  · exact he e h2 c hc
  · rcases inLines_chars h3 c hc with hc | rfl | rfl
    · exact (base64_safe h1 c hc).2.2.2.2.2.2.2
    · decide
    · decide
  · exact hE c hc
  · exact hl c hc
  · exact hD c hc
  · rcases h4 with rfl | h4
    · cases hc
    · exact he f h4 c hc

theorem pemToCertificate_of {α : Type} (parse : Bytes → Option α) {t l : Text} {raw : Bytes} (hl : l = certLabel) (h : pemDecode t = some (l, raw)) :
    pemToCertificate parse t = parse raw := by
  unfold pemToCertificate
  rw [h]
  dsimp only
  rw [if_pos hl]

theorem crlOctets_of {f bs : Bytes} {l : Text} (hp : (pemBegin ++ crlLabel).isPrefixOf (octetText f) = true) (hl : l = crlLabel)
    (h : pemDecode (octetText f) = some (l, bs)) : crlOctets f = bs := by
  unfold crlOctets
  rw [if_pos hp, h]
  dsimp only
  rw [if_pos hl]

/-! ### C105 -/

/-- **C105 (one meaning).** No text is the armour of two octet strings or has two labels. -/
theorem C105_one_meaning {l l' t : Text} {bs bs' : Bytes} (h : Armour l bs t) (h' : Armour l' bs' t) : l = l' ∧ bs = bs' := by
  have e := (pemDecode_armour h).symm.trans (pemDecode_armour h')
  injection e with e
  injection e with e1 e2
  exact ⟨e1, e2⟩

/-- **C105 (read).** Every text in the form of RFC 7468, with lines of any length and either kind of line end, is read as the octets it stands for by the
Go programs, by the client, and (if it is a certificate) by the publisher. -/
theorem C105_read {l t : Text} {bs : Bytes} (h : Armour l bs t) :
    pemDecode t = some (l, bs) ∧ rustPem t = some (l, bs) ∧ (l = "CERTIFICATE".toList → asciiPemToDer t = some bs) := by
  refine ⟨pemDecode_armour h, rustPem_armour h, ?_⟩
  intro e
  have e' : l = certLabel := e
  subst e'
  exact asciiPem_armour h

/-- **C105 (written).** What `CertificateToPEM` writes is the armour of the certificate's octets. -/
theorem C105_written (raw : Bytes) : Armour "CERTIFICATE".toList raw (certificateToPem raw) := by
  refine ⟨certLabel_label, b64Encode false raw, ['\n'], pemLines (b64Encode false raw).length (b64Encode false raw), [], encode_base64 raw, Or.inl rfl,
    pemLines_inLines _ _ (Nat.le_refl _), Or.inl rfl, ?_⟩
  rw [certificateToPem_eq]
  show _ = pemBegin ++ certLabel ++ pemDashes ++ ['\n'] ++ pemLines (b64Encode false raw).length (b64Encode false raw) ++ pemEnd ++ certLabel ++ pemDashes ++ []
  generalize pemBegin = b
  generalize pemEnd = d
  generalize pemDashes = f
  generalize certLabel = l
  simp only [List.append_assoc, List.cons_append, List.nil_append, List.append_nil]

/-- **C105 (handed over).** The certificate that aggregate-crls wrote into enrolled.json is the one that aggregate-known reads, that the publisher reads, and
that the client reads. -/
theorem C105_hand_over {α : Type} (parse : Bytes → Option α) (raw : Bytes) :
    pemToCertificate parse (certificateToPem raw) = parse raw ∧ rustPem (certificateToPem raw) = some ("CERTIFICATE".toList, raw) ∧
      asciiPemToDer (certificateToPem raw) = some raw := by
  obtain ⟨h1, h2, h3⟩ := C105_read (C105_written raw)
  exact ⟨pemToCertificate_of parse rfl h1, h2, h3 rfl⟩

/-- **C105 (the script's assumption).** The assumption about armour in C99 (`GoodLib.pem`) holds when `pem` and `unpem` are the functions above and parsing
a certificate's octets gives the certificate. -/
theorem C105_script {F : Type} (L : ScriptLib F) (raw : IssCert → Bytes) (parse : Bytes → Option IssCert) (hp : ∀ c, parse (raw c) = some c)
    (hw : ∀ c, L.pem c = certificateToPem (raw c)) (hr : ∀ t, L.unpem t = pemToCertificate parse t) (c : IssCert) : L.unpem (L.pem c) = some c := by
  rw [hw, hr, (C105_hand_over parse (raw c)).1, hp]

/-- **C105 (the client's intermediates).** From a list of certificates in enrolled.json the client takes exactly those whose octets it can parse. -/
theorem C105_client (parse : Bytes → Option IssuerCert) (raws : List Bytes) :
    fromEnrolled (fun t => (rustPem t).map Prod.snd) parse (raws.map certificateToPem) = raws.foldl (fun m r => enrollOne (fun _ => some r) parse m []) [] := by
  unfold fromEnrolled
  rw [List.foldl_map]
  congr 1
  funext m r
  unfold enrollOne
  dsimp only
  rw [(C105_hand_over parse r).2.1]
  rfl

/-- **C105 (nothing is invented).** Whatever `pem.Decode` returns stands in the text between a marker of its beginning and one of its end with the same label. -/
theorem C105_found {t l : Text} {bs : Bytes} (h : pemDecode t = some (l, bs)) :
    ∃ pre hdr data post, t = pre ++ "-----BEGIN ".toList ++ l ++ "-----".toList ++ hdr ++ data ++ "-----END ".toList ++ l ++ "-----".toList ++ post ∧
      b64Decode false (data.filter (fun c => !(" \t\r\n".toList.contains c))) = some bs := by
  have e : (fun c => !isSpacing c) = (fun c => !(" \t\r\n".toList.contains c)) := by
    funext c
    rw [Bool.eq_iff_iff]
    unfold isSpacing
    show _ ↔ (!([' ', '\t', '\r', '\n'].contains c)) = true
    simp
  obtain ⟨pre, hdr, data, post, h1, h2⟩ := pemLoop_sound _ _ _ _ h
  exact ⟨pre, hdr, data, post, h1, e ▸ h2⟩

/-- **C105 (plain files).** In a file without a marker, and in one that is the armour of a CRL, the CRL whose signature is verified and whose revocations are
used is the one whose distribution point is checked; and the client judges the certificate in the file.
Full statement: this holds of every file. It does not: `C105_hidden_fails`. -/
theorem C105_plain_partial (f : Bytes) :
    (¬ HasMarker (octetText f) → crlOctets f = f ∧ idpOctets f = f ∧ queryOctets f = f) ∧
    (∀ bs, Armour "X509 CRL".toList bs (octetText f) → crlOctets f = bs ∧ idpOctets f = bs) ∧
    (∀ l bs, Armour l bs (octetText f) → queryOctets f = bs) := by
  refine ⟨?_, ?_, ?_⟩
  · intro h
    obtain ⟨h1, h2⟩ := no_marker h
    refine ⟨?_, ?_, ?_⟩
    · unfold crlOctets
      rw [h1]
      split <;> rfl
    · unfold idpOctets
      rw [h1]
    · unfold queryOctets
      rw [h2]
  · intro bs h
    have hd := pemDecode_armour h
    constructor
    · have hp : (pemBegin ++ crlLabel).isPrefixOf (octetText f) = true := by
        obtain ⟨b64, e, body, g, _, _, _, _, he⟩ := armour_shape h
        refine List.isPrefixOf_iff_prefix.2 ⟨pemDashes ++ e ++ (body ++ pemEnd ++ crlLabel ++ pemDashes ++ g), ?_⟩
        have e0 : "X509 CRL".toList = crlLabel := rfl
        rw [he, e0]
        simp only [List.append_assoc]
      exact crlOctets_of hp rfl hd
    · unfold idpOctets
      rw [hd]
  · intro l bs h
    unfold queryOctets
    rw [rustPem_armour h]

/-- The first octet of a SEQUENCE. -/
theorem sequence_head {c w : Bytes} (h : Element 0 16 true c w) : ∃ r, w = 0x30 :: r := by
  obtain ⟨id, ls, ⟨_, h1 | h1⟩, _, rfl⟩ := h
  · obtain ⟨_, b, rfl, hb⟩ := h1
    refine ⟨ls ++ c, ?_⟩
    have : b = 0x30 := by
      apply UInt8.toNat_inj.1
      rw [hb]
      decide
    rw [this]
    rfl
  · exact absurd h1.1 (by decide)

/-- **C105 (a hidden block).** A certificate or CRL in DER is a SEQUENCE of the signed part, the signature algorithm and the signature; the parameters of the
algorithm outside the signed part are not signed, and for most algorithms not looked at. Put the armour of any other octets there: the signature of
the CRL is still verified, and its revocations used, but the distribution point that is checked is that of the other octets, which nobody signed; and
the client answers for the other octets instead of the certificate. -/
theorem C105_hidden_fails {l a : Text} {other h : Bytes} (ha : Armour l other a) (hh : octetText h = '\n' :: (a ++ ['\n']))
    {tbs oid params alg sig f : Bytes} (hp : Element 0 4 false h params) (hal : Element 0 16 true (oid ++ params) alg)
    (hf : Element 0 16 true (tbs ++ alg ++ sig) f) (hm : ∀ pre, f = pre ++ h ++ sig → ¬ HasMarker (octetText pre)) :
    crlOctets f = f ∧ idpOctets f = other ∧ queryOctets f = other := by
  obtain ⟨r, hr⟩ := sequence_head hf
  have hpre : ∃ pre, f = pre ++ h ++ sig := by
    obtain ⟨i1, l1, _, _, rfl⟩ := hp
    obtain ⟨i2, l2, _, _, rfl⟩ := hal
    obtain ⟨i3, l3, _, _, rfl⟩ := hf
    exact ⟨i3 ++ l3 ++ tbs ++ i2 ++ l2 ++ oid ++ i1 ++ l1, by simp only [List.append_assoc]⟩
  obtain ⟨pre, hpre⟩ := hpre
  have ht : octetText f = octetText pre ++ '\n' :: (a ++ '\n' :: octetText sig) := by
    rw [hpre, octetText_append, octetText_append, hh]
    simp only [List.append_assoc, List.cons_append, List.nil_append]
  refine ⟨?_, ?_, ?_⟩
  · unfold crlOctets
    have hn : ¬ (pemBegin ++ crlLabel).isPrefixOf (octetText f) = true := by
      intro e
      have e := List.isPrefixOf_iff_prefix.1 e
      rw [hr] at e
      have e2 : pemBegin ++ crlLabel = '-' :: ("----BEGIN ".toList ++ crlLabel) := by decide
      rw [e2] at e
      have e3 : octetText (0x30 :: r) = '0' :: octetText r := rfl
      rw [e3] at e
      exact absurd (List.cons_prefix_cons.1 e).1 (by decide)
    rw [if_neg hn]
  · unfold idpOctets
    rw [ht, pemDecode_hidden ha (hm pre hpre)]
  · unfold queryOctets
    rw [ht, rustPem_hidden ha (hm pre hpre)]

/-! ### examples -/

/-- A certificate of three octets, with Windows line ends and a line of one character. -/
example : Armour "CERTIFICATE".toList [1, 2, 3] "-----BEGIN CERTIFICATE-----\r\nA\r\nQID\r\n-----END CERTIFICATE-----".toList :=
  ⟨certLabel_label, ['A', 'Q', 'I', 'D'], ['\r', '\n'], "A\r\nQID\r\n".toList, [],
    Base64.three (d := 0) (e := 16) (f := 8) (g := 3) (digit64_of (by decide)) (digit64_of (by decide)) (digit64_of (by decide)) (digit64_of (by decide)) (by decide) Base64.nil, Or.inr rfl,
    InLines.cons (l := ['A']) (e := ['\r', '\n']) (by decide) (Or.inr rfl)
      (InLines.cons (l := ['Q', 'I', 'D']) (t := []) (e := ['\r', '\n']) (by decide) (Or.inr rfl) InLines.nil),
    Or.inl rfl, by decide⟩

example : certificateToPem [1, 2, 3, 4] = "-----BEGIN CERTIFICATE-----\nAQIDBA==\n-----END CERTIFICATE-----".toList := by decide +kernel

/-- Headers and text before the block are skipped by the Go decoder. -/
example : pemDecode "hello\n-----BEGIN X-----\nKey: value\n\nAQID\n-----END X-----\nmore".toList = some ("X".toList, [1, 2, 3]) := by decide +kernel

/-- Blanks at the ends of the lines of the markers do not matter to the Go decoder. -/
example : pemDecode "-----BEGIN X----- \t\nAQID\n-----END X----- \n".toList = some ("X".toList, [1, 2, 3]) := by decide +kernel

/-- A block that is not closed is skipped. -/
example : pemDecode "-----BEGIN X-----\nAQID\n-----BEGIN Y-----\nAQIE\n-----END Y-----\n".toList = some ("Y".toList, [1, 2, 4]) := by decide +kernel

/-- The text of the hidden block of the next example. -/
def hiddenText : Text := "-----BEGIN X509 CRL-----\nAQID\n-----END X509 CRL-----".toList

/-- A small SEQUENCE in which a block is hidden. -/
def hiddenFile : Bytes :=
  [0x30, 66, 0x30, 0, 0x30, 59, 6, 1, 42, 4, 54] ++ asciiOctets ('\n' :: (hiddenText ++ ['\n'])) ++ [3, 1, 0]

/-- The hypotheses of `C105_hidden_fails` can be met. -/
example : Armour "X509 CRL".toList [1, 2, 3] hiddenText ∧ octetText (asciiOctets ('\n' :: (hiddenText ++ ['\n']))) = '\n' :: (hiddenText ++ ['\n']) ∧
    Element 0 4 false (asciiOctets ('\n' :: (hiddenText ++ ['\n']))) ([4, 54] ++ asciiOctets ('\n' :: (hiddenText ++ ['\n']))) ∧
    Element 0 16 true ([6, 1, 42] ++ ([4, 54] ++ asciiOctets ('\n' :: (hiddenText ++ ['\n'])))) ([0x30, 59, 6, 1, 42, 4, 54] ++ asciiOctets ('\n' :: (hiddenText ++ ['\n']))) ∧
    Element 0 16 true ([0x30, 0] ++ ([0x30, 59, 6, 1, 42, 4, 54] ++ asciiOctets ('\n' :: (hiddenText ++ ['\n']))) ++ [3, 1, 0]) hiddenFile ∧
    crlOctets hiddenFile = hiddenFile ∧ idpOctets hiddenFile = [1, 2, 3] ∧ queryOctets hiddenFile = [1, 2, 3] := by
  refine ⟨⟨⟨by decide, by decide⟩, ['A', 'Q', 'I', 'D'], ['\n'], "AQID\n".toList, [], ?_, Or.inl rfl, ?_, Or.inl rfl, by decide⟩, by decide +kernel, ?_, ?_, ?_, ?_⟩
  · exact Base64.three (d := 0) (e := 16) (f := 8) (g := 3) (digit64_of (by decide)) (digit64_of (by decide)) (digit64_of (by decide)) (digit64_of (by decide)) (by decide) Base64.nil
  · exact InLines.cons (l := ['A', 'Q', 'I', 'D']) (t := []) (e := ['\n']) (by decide) (Or.inl rfl) InLines.nil
  · exact ⟨[4], [54], ⟨by decide, Or.inl ⟨by decide, 4, rfl, by decide⟩⟩, Or.inl ⟨by decide +kernel, 54, rfl, by decide +kernel⟩, rfl⟩
  · exact ⟨[0x30], [59], ⟨by decide, Or.inl ⟨by decide, 0x30, rfl, by decide⟩⟩, Or.inl ⟨by decide +kernel, 59, rfl, by decide +kernel⟩, by decide +kernel⟩
  · exact ⟨[0x30], [66], ⟨by decide, Or.inl ⟨by decide, 0x30, rfl, by decide⟩⟩, Or.inl ⟨by decide +kernel, 66, rfl, by decide +kernel⟩, by decide +kernel⟩
  · decide +kernel

/-! ### each theorem applied -/

theorem hiddenText_armour : Armour "X509 CRL".toList [1, 2, 3] hiddenText :=
  ⟨⟨by decide, by decide⟩, ['A', 'Q', 'I', 'D'], ['\n'], "AQID\n".toList, [],
    Base64.three (d := 0) (e := 16) (f := 8) (g := 3) (digit64_of (by decide)) (digit64_of (by decide)) (digit64_of (by decide)) (digit64_of (by decide)) (by decide) Base64.nil, Or.inl rfl,
    InLines.cons (l := ['A', 'Q', 'I', 'D']) (t := []) (e := ['\n']) (by decide) (Or.inl rfl) InLines.nil, Or.inl rfl, by decide⟩

example := C105_one_meaning hiddenText_armour hiddenText_armour
example := C105_read hiddenText_armour
example := C105_found (t := "hello\n-----BEGIN X-----\nKey: value\n\nAQID\n-----END X-----\nmore".toList) (l := "X".toList) (bs := [1, 2, 3]) (by decide +kernel)

/-! ### the script's assumption applied -/

/-- Numbers in unary. -/
def exUnary : List Nat → Bytes
  | [] => []
  | n :: ns => List.replicate n 1 ++ 0 :: exUnary ns

def exUnUnary : Nat → Bytes → List Nat
  | _, [] => []
  | k, b :: bs => if b = 1 then exUnUnary (k + 1) bs else k :: exUnUnary 0 bs

theorem exUnUnary_replicate (n k : Nat) (bs : Bytes) : exUnUnary k (List.replicate n 1 ++ 0 :: bs) = (k + n) :: exUnUnary 0 bs := by
  induction n generalizing k with
  | zero => rfl
  | succ n ih =>
    rw [List.replicate_succ, List.cons_append]
    show exUnUnary (k + 1) _ = _
    rw [ih]
    congr 1
    omega

theorem exUnUnary_exUnary (ns : List Nat) : exUnUnary 0 (exUnary ns) = ns := by
  induction ns with
  | nil => rfl
  | cons n ns ih =>
    show exUnUnary 0 (List.replicate n 1 ++ 0 :: exUnary ns) = _
    rw [exUnUnary_replicate, ih, Nat.zero_add]

/-- The octets of a certificate, in an encoding that can be read back. -/
def exRawCert (c : IssCert) : Bytes := exUnary (c.raw :: c.issuer.length :: (c.issuer ++ c.fp).map Char.toNat)

def exParseCert (b : Bytes) : Option IssCert :=
  match exUnUnary 0 b with
  | r :: n :: l => some ⟨(l.map Char.ofNat).take n, (l.map Char.ofNat).drop n, r⟩
  | _ => none

theorem exParseCert_raw (c : IssCert) : exParseCert (exRawCert c) = some c := by
  unfold exParseCert exRawCert
  rw [exUnUnary_exUnary]
  dsimp only
  have e : ((c.issuer ++ c.fp).map Char.toNat).map Char.ofNat = c.issuer ++ c.fp := by
    rw [List.map_map]
    exact (List.map_congr_left (fun x _ => Char.ofNat_toNat x)).trans (List.map_id _)
  rw [e, List.take_left, List.drop_left]

/-- A library of the script whose armour is that of the code. -/
def exPemLib : ScriptLib (List Bytes) :=
  { lib := { clubcard := fun _ _ => none, cascade := fun _ _ => none, contains := fun _ _ => false, order := fun l => l }
    coverage := fun _ _ => none
    writeCard := fun _ _ => []
    writeRevset := fun _ => []
    readRevset := fun _ => none
    writeLogs := fun _ => []
    writeList := fun _ => []
    writeText := fun _ => []
    pem := fun c => certificateToPem (exRawCert c)
    unpem := pemToCertificate exParseCert }

example : exPemLib.unpem (exPemLib.pem ⟨['i'], ['1'], 7⟩) = some ⟨['i'], ['1'], 7⟩ :=
  C105_script exPemLib exRawCert exParseCert exParseCert_raw (fun _ => rfl) (fun _ => rfl) _

end Verif.Props
