import Verif.Spec.Invoice
import Verif.Lemmas.Amount
import Verif.Props.Amount
/-! Lemmas about percent-encoding, URI parsing and invoice text. -/
namespace Rgb.Inv
open Rgb

theorem hexVal_hexChar {n : Nat} (h : n < 16) : hexVal (hexChar n) = some n := by
  have : ∀ n : Fin 16, hexVal (hexChar n) = some n.val := by decide
  exact this ⟨n, h⟩

theorem hexChar_ne {n : Nat} (h : n < 16) : hexChar n ≠ '&' ∧ hexChar n ≠ '=' ∧ hexChar n ≠ '#' ∧ hexChar n ≠ '?' ∧ hexChar n ≠ '%' := by
  have : ∀ n : Fin 16, hexChar n ≠ '&' ∧ hexChar n ≠ '=' ∧ hexChar n ≠ '#' ∧ hexChar n ≠ '?' ∧ hexChar n ≠ '%' := by decide
  exact this ⟨n, h⟩

theorem byte_hi (b : UInt8) : b.toNat / 16 < 16 := by have := b.toNat_lt; omega
theorem byte_lo (b : UInt8) : b.toNat % 16 < 16 := by omega

theorem pctBytes_pctByte (b : UInt8) (r : Text) : pctBytes (pctByte b ++ r) = (pctBytes r).map (b :: ·) := by
  simp only [pctByte, List.cons_append, List.nil_append, pctBytes, hexVal_hexChar (byte_hi b), hexVal_hexChar (byte_lo b)]
  cases pctBytes r with
  | none => rfl
  | some x =>
    have : 16 * (b.toNat / 16) + b.toNat % 16 = b.toNat := by omega
    simp [this]

theorem pctBytes_flatMap (bs : List UInt8) (r : Text) :
    pctBytes (bs.flatMap pctByte ++ r) = (pctBytes r).map (bs ++ ·) := by
  induction bs with
  | nil => simp
  | cons b bs ih =>
    rw [List.flatMap_cons, List.append_assoc, pctBytes_pctByte, ih]
    cases pctBytes r <;> simp

theorem pctBytes_keep {c : Char} (hc : c ≠ '%') (r : Text) :
    pctBytes (c :: r) = (pctBytes r).map (String.utf8EncodeChar c ++ ·) := by
  rw [pctBytes]
  · cases pctBytes r <;> rfl
  · intro a b cs h _; exact hc h
  · intro h; exact hc h

theorem pctBytes_encodeChar {c : Char} (hc : c ≠ '%') (r : Text) :
    pctBytes (pctEncodeChar c ++ r) = (pctBytes r).map (String.utf8EncodeChar c ++ ·) := by
  unfold pctEncodeChar
  split
  · simpa using pctBytes_keep hc r
  · exact pctBytes_flatMap _ _

theorem pctBytes_encode (s : Text) (h : '%' ∉ s) : pctBytes (pctEncode s) = some (s.flatMap String.utf8EncodeChar) := by
  induction s with
  | nil => rfl
  | cons c cs ih =>
    simp only [List.mem_cons, not_or] at h
    have := pctBytes_encodeChar (Ne.symm h.1) (pctEncode cs)
    simp only [pctEncode, List.flatMap_cons] at *
    rw [this, ih h.2]; simp

theorem pctDecode_encode (s : Text) (h : '%' ∉ s) : pctDecode (pctEncode s) = some s := by
  unfold pctDecode
  rw [pctBytes_encode s h]
  have : (s.flatMap String.utf8EncodeChar).toByteArray.utf8Decode? = some s.toArray := List.utf8Decode?_utf8Encode
  simp only [this]

/-- Encoded text never contains query delimiters. -/
theorem pctEncode_no_delim (s : Text) (d : Char) (hd : d = '&' ∨ d = '=' ∨ d = '#') : d ∉ pctEncode s := by
  intro hm
  simp only [pctEncode, List.mem_flatMap] at hm
  obtain ⟨c, _, hm⟩ := hm
  unfold pctEncodeChar at hm
  split at hm
  · rename_i h
    have hmc : d = c := by simpa using hm
    subst hmc
    have : inQueryEncode d = true := by rcases hd with rfl | rfl | rfl <;> decide
    rw [this] at h; exact absurd h.2 (by decide)
  · simp only [List.mem_flatMap] at hm
    obtain ⟨b, _, hm⟩ := hm
    simp only [pctByte, List.mem_cons, List.not_mem_nil, or_false] at hm
    have h1 := hexChar_ne (byte_hi b)
    have h2 := hexChar_ne (byte_lo b)
    rcases hm with rfl | hm | hm
    · rcases hd with h | h | h <;> exact absurd h (by decide)
    · rcases hd with rfl | rfl | rfl
      · exact h1.1 hm.symm
      · exact h1.2.1 hm.symm
      · exact h1.2.2.1 hm.symm
    · rcases hd with rfl | rfl | rfl
      · exact h2.1 hm.symm
      · exact h2.2.1 hm.symm
      · exact h2.2.2.1 hm.symm

theorem validPct_pctByte (ok : Char → Bool) (b : UInt8) (r : Text) : validPct ok (pctByte b ++ r) = validPct ok r := by
  simp [pctByte, validPct, hexVal_hexChar (byte_hi b), hexVal_hexChar (byte_lo b)]

theorem validPct_flatMap (ok : Char → Bool) (bs : List UInt8) (r : Text) :
    validPct ok (bs.flatMap pctByte ++ r) = validPct ok r := by
  induction bs with
  | nil => rfl
  | cons b bs ih => rw [List.flatMap_cons, List.append_assoc, validPct_pctByte, ih]

theorem validPct_keep (ok : Char → Bool) {c : Char} (hc : c ≠ '%') (r : Text) :
    validPct ok (c :: r) = (ok c && validPct ok r) := by
  rw [validPct]
  · intro a b cs h _; exact hc h
  · intro h; exact hc h

theorem char_eq_ofNat (c : Char) : c = Char.ofNat c.toNat := (Char.ofNat_toNat c).symm

/-- ASCII characters not escaped and not fragile are legal in a query. -/
theorem kept_is_query {c : Char} (h1 : c.toNat < 128) (h2 : inQueryEncode c = false) (h3 : c ∉ fragile) :
    (isPchar c || c == '/' || c == '?') = true := by
  have : ∀ n : Fin 128, inQueryEncode (Char.ofNat n) = false → Char.ofNat n ∉ fragile →
      (isPchar (Char.ofNat n) || Char.ofNat n == '/' || Char.ofNat n == '?') = true := by decide +kernel
  rw [char_eq_ofNat c] at h2 h3 ⊢
  exact this ⟨c.toNat, h1⟩ h2 h3

def queryOk (c : Char) : Bool := isPchar c || c == '/' || c == '?'

theorem validPct_encode (s : Text) (h : SafeText s) (r : Text) :
    validPct queryOk (pctEncode s ++ r) = validPct queryOk r := by
  induction s with
  | nil => rfl
  | cons c cs ih =>
    have hc := h c (by simp)
    have hcs : SafeText cs := fun x hx => h x (by simp [hx])
    simp only [pctEncode, List.flatMap_cons, List.append_assoc] at *
    rw [show pctEncodeChar c ++ (List.flatMap pctEncodeChar cs ++ r) = pctEncodeChar c ++ (List.flatMap pctEncodeChar cs ++ r) from rfl]
    unfold pctEncodeChar
    split
    · rename_i hk
      rw [List.singleton_append, validPct_keep _ (by intro h; subst h; exact hc (by decide))]
      have := kept_is_query hk.1 hk.2 hc
      simp only [queryOk, this, Bool.true_and]
      exact ih hcs
    · rw [validPct_flatMap]; exact ih hcs

theorem validPct_of_all (ok : Char → Bool) (s : Text) (h : ∀ c ∈ s, ok c = true) (hp : '%' ∉ s) : validPct ok s = true := by
  induction s with
  | nil => rfl
  | cons c cs ih =>
    simp only [List.mem_cons, not_or] at hp
    rw [validPct_keep _ (Ne.symm hp.1), h c (by simp), ih (fun x hx => h x (by simp [hx])) hp.2]; rfl

theorem pchar_ne {c : Char} (h : isPchar c = true) : c ≠ '%' ∧ c ≠ '#' ∧ c ≠ '?' ∧ c ≠ '/' := by
  refine ⟨?_, ?_, ?_, ?_⟩ <;> (rintro rfl; revert h; decide)

/-! #### query -/

/-- The printed query. -/
def queryText : List (Text × Text) → Text
  | [] => []
  | p :: ps => queryPair p ++ ps.flatMap (fun p => '&' :: queryPair p)

theorem queryPair_no_amp (p : Text × Text) : '&' ∉ queryPair p := by
  simp only [queryPair, List.mem_append, List.mem_cons, not_or]
  exact ⟨pctEncode_no_delim _ _ (by simp), by decide, pctEncode_no_delim _ _ (by simp)⟩

theorem queryPair_split (p : Text × Text) : splitOnce '=' (queryPair p) = some (pctEncode p.1, pctEncode p.2) :=
  splitOnce_append _ _ _ (pctEncode_no_delim _ _ (by simp))

theorem queryText_split (ps : List (Text × Text)) (hne : ps ≠ []) :
    splitAll '&' (queryText ps) = ps.map queryPair := by
  cases ps with
  | nil => exact absurd rfl hne
  | cons p ps =>
    clear hne
    simp only [queryText, List.map_cons]
    induction ps generalizing p with
    | nil => simpa using splitAll_single _ _ (queryPair_no_amp p)
    | cons q qs ih =>
      simp only [List.flatMap_cons, List.cons_append, List.map_cons]
      rw [splitAll_append _ _ _ (queryPair_no_amp p), ih q]

theorem imInsert_fresh (m : List (Text × Text)) (k v : Text) (h : k ∉ m.map Prod.fst) : imInsert m k v = m ++ [(k, v)] := by
  induction m with
  | nil => rfl
  | cons p m ih =>
    simp only [List.map_cons, List.mem_cons, not_or] at h
    simp only [imInsert, List.cons_append, ih h.2]
    rw [if_neg (Ne.symm h.1)]

theorem imExtend_fresh (m n : List (Text × Text)) (h : ((m ++ n).map Prod.fst).Nodup) : imExtend m n = m ++ n := by
  induction n generalizing m with
  | nil => simp [imExtend]
  | cons p n ih =>
    have hf : p.1 ∉ m.map Prod.fst := by
      simp only [List.map_append, List.map_cons] at h
      rw [List.nodup_append] at h
      intro hm
      exact h.2.2 _ hm _ (by simp) rfl
    simp only [imExtend, List.foldl_cons] at *
    rw [imInsert_fresh _ _ _ hf, ih]
    · simp
    · simpa using h

theorem mapQuery_foldlM (ps : List (Text × Text)) (m : List (Text × Text))
    (h : ((m ++ ps).map Prod.fst).Nodup) (hs : ∀ p ∈ ps, '%' ∉ p.1 ∧ '%' ∉ p.2) :
    (ps.map queryPair).foldlM (m := Except InvoiceErr) (fun m p =>
      match splitOnce '=' p with
      | some (k, v) => match pctDecode k, pctDecode v with
        | some k, some v => .ok (imInsert m k v)
        | _, _ => .error .invalidQueryParam
      | none => .error .invalidQueryParam) m = .ok (m ++ ps) := by
  induction ps generalizing m with
  | nil => simp; rfl
  | cons p ps ih =>
    have hf : p.1 ∉ m.map Prod.fst := by
      simp only [List.map_append, List.map_cons] at h
      rw [List.nodup_append] at h
      intro hm
      exact h.2.2 _ hm _ (by simp) rfl
    have hp := hs p (by simp)
    simp only [List.map_cons, List.foldlM_cons, queryPair_split, pctDecode_encode _ hp.1, pctDecode_encode _ hp.2]
    rw [imInsert_fresh _ _ _ hf]
    show List.foldlM _ (m ++ [(p.1, p.2)]) _ = _
    rw [ih]
    · simp
    · simpa using h
    · exact fun q hq => hs q (by simp [hq])

theorem mapQueryParams_queryText (ps : List (Text × Text)) (hne : ps ≠ []) (hk : (ps.map Prod.fst).Nodup)
    (hs : ∀ p ∈ ps, '%' ∉ p.1 ∧ '%' ∉ p.2) : mapQueryParams (some (queryText ps)) = .ok ps := by
  unfold mapQueryParams
  simp only [queryText_split ps hne]
  have := mapQuery_foldlM ps [] (by simpa using hk) hs
  rw [List.nil_append] at this
  exact this

theorem validPct_queryText (ps : List (Text × Text)) (hs : ∀ p ∈ ps, SafeText p.1 ∧ SafeText p.2) :
    validPct queryOk (queryText ps) = true := by
  have hpair : ∀ (p : Text × Text) (r : Text), SafeText p.1 → SafeText p.2 →
      validPct queryOk (queryPair p ++ r) = validPct queryOk r := by
    intro p r h1 h2
    simp only [queryPair, List.append_assoc, List.cons_append]
    rw [validPct_encode _ h1, validPct_keep _ (by decide), validPct_encode _ h2]
    have : queryOk '=' = true := by decide
    rw [this]; rfl
  have hrest : ∀ (ps : List (Text × Text)), (∀ p ∈ ps, SafeText p.1 ∧ SafeText p.2) →
      validPct queryOk (ps.flatMap (fun p => '&' :: queryPair p)) = true := by
    intro ps hs
    induction ps with
    | nil => rfl
    | cons p ps ih =>
      rw [List.flatMap_cons, List.cons_append, validPct_keep _ (by decide), hpair p _ (hs p (by simp)).1 (hs p (by simp)).2,
        ih (fun q hq => hs q (by simp [hq]))]
      decide
  cases ps with
  | nil => rfl
  | cons p ps =>
    simp only [queryText]
    rw [hpair p _ (hs p (by simp)).1 (hs p (by simp)).2]
    exact hrest ps (fun q hq => hs q (by simp [hq]))

theorem queryText_no_hash (ps : List (Text × Text)) : '#' ∉ queryText ps := by
  have hpair : ∀ p : Text × Text, '#' ∉ queryPair p := by
    intro p
    simp only [queryPair, List.mem_append, List.mem_cons, not_or]
    exact ⟨pctEncode_no_delim _ _ (by simp), by decide, pctEncode_no_delim _ _ (by simp)⟩
  cases ps with
  | nil => simp [queryText]
  | cons p ps =>
    simp only [queryText, List.mem_append, List.mem_flatMap, List.mem_cons, not_or, not_exists, not_and]
    refine ⟨hpair p, ?_⟩
    intro q _
    exact ⟨by decide, hpair q⟩

/-! #### URI -/

/-- Query part with its question mark. -/
def qTail : Option Text → Text
  | some q => '?' :: q
  | none => []

theorem Uri.parse_simple (path : Text) (query : Option Text)
    (hpath : ∀ c ∈ path, isPchar c = true ∨ c = '/') (hhead : path.head? ≠ some '/')
    (hq : ∀ q, query = some q → validPct queryOk q = true ∧ '#' ∉ q) :
    Uri.parse ("rgb:".toList ++ path ++ qTail query) =
      some { scheme := some "rgb".toList, authority := false, path, query } := by
  have hp : ∀ c ∈ path, c ≠ '%' ∧ c ≠ '#' ∧ c ≠ '?' := by
    intro c hc
    rcases hpath c hc with h | rfl
    · have := pchar_ne h; exact ⟨this.1, this.2.1, this.2.2.1⟩
    · decide
  have hnh : '#' ∉ "rgb:".toList ++ path ++ qTail query := by
    intro h
    rcases List.mem_append.mp h with h | h
    · rcases List.mem_append.mp h with h | h
      · revert h; decide
      · exact (hp _ h).2.1 rfl
    · cases query with
      | none => simp [qTail] at h
      | some q =>
        simp only [qTail, List.mem_cons] at h
        rcases h with h | h
        · revert h; decide
        · exact (hq q rfl).2 h
  have hnq : '?' ∉ "rgb:".toList ++ path := by
    intro h
    rcases List.mem_append.mp h with h | h
    · revert h; decide
    · exact (hp _ h).2.2 rfl
  have hvp : validPct (fun c => isPchar c || c == '/') path = true := by
    apply validPct_of_all
    · intro c hc; rcases hpath c hc with h | rfl
      · simp [h]
      · decide
    · intro h; exact (hp _ h).1 rfl
  have hcolon : splitOnce ':' ("rgb:".toList ++ path) = some ("rgb".toList, path) :=
    splitOnce_append ':' "rgb".toList path (by decide)
  have hs1 : ¬ ('/' ∈ "rgb".toList) := by decide
  have hs2 : validScheme "rgb".toList = true := by decide
  have hnil : validPct (fun c => isPchar c || c == '/' || c == '?') [] = true := rfl
  cases query with
  | none =>
    simp only [qTail, List.append_nil] at hnh ⊢
    simp only [Uri.parse, (splitOnce_none _ _).mpr hnh, (splitOnce_none _ _).mpr hnq, hcolon, hs1, hs2, if_false, if_true]
    split
    · simp at hhead
    · simp only [hvp, hnil]; rfl
  | some q =>
    have hvq : validPct (fun c => isPchar c || c == '/' || c == '?') q = true := (hq q rfl).1
    have hsq : splitOnce '?' ("rgb:".toList ++ path ++ '?' :: q) = some ("rgb:".toList ++ path, q) := splitOnce_append _ _ _ hnq
    simp only [qTail] at hnh ⊢
    simp only [Uri.parse, (splitOnce_none _ _).mpr hnh, hsq, hcolon, hs1, hs2, if_false, if_true]
    split
    · simp at hhead
    · simp only [hvp, hvq, hnil]; rfl

end Rgb.Inv

namespace Rgb.Inv
open Rgb

theorem digit_pchar {c : Char} (h : ∃ d, d < 10 ∧ c = digitChar d) : isPchar c = true ∧ c ≠ '+' ∧ c ∉ fragile ∧ c ≠ ',' := by
  obtain ⟨d, hd, rfl⟩ := h
  have : ∀ d : Fin 10, isPchar (digitChar d) = true ∧ digitChar d ≠ '+' ∧ digitChar d ∉ fragile ∧ digitChar d ≠ ',' := by decide
  exact this ⟨d, hd⟩

theorem allocation_roundtrip (a : Allocation) (hf : a.fraction ≤ u64Max) (hi : a.tokenIndex ≤ u32Max) :
    Allocation.fromStr a.display = .ok a := by
  unfold Allocation.fromStr Allocation.display
  rw [if_neg (by simp), splitOnce_append _ _ _ (showNat_not_mem _ _ (by decide))]
  simp only [parseUint_showNat hf, parseUint_showNat hi]

theorem splitScheme_append (a b : Text) (h : ':' ∉ a) : splitScheme (a ++ ':' :: '/' :: '/' :: b) = some (a, b) := by
  induction a with
  | nil => simp [splitScheme]
  | cons c cs ih =>
    simp only [List.mem_cons, not_or] at h
    simp only [List.cons_append, splitScheme, ih h.2]
    split
    · rename_i heq; injection heq with h1 _; exact absurd h1.symm h.1
    · rfl

theorem transport_roundtrip (t : Transport) (h : ∀ tls h, t = .jsonRpc tls h ∨ t = .restHttp tls h ∨ t = .webSockets tls h → h ≠ [])
    (hu : t ≠ .unspecified) : Transport.fromStr t.display = .ok t := by
  have key : ∀ (a b : Text), ':' ∉ a → splitScheme (a ++ "://".toList ++ b) = some (a, b) := by
    intro a b h; simpa using splitScheme_append a b h
  cases t with
  | unspecified => exact absurd rfl hu
  | storm => rfl
  | jsonRpc tls host =>
    have hne := h tls host (by simp)
    cases tls
    · simp only [Transport.display, Transport.fromStr, Bool.false_eq_true, if_false, List.append_nil]
      rw [key _ _ (by decide)]; simp [hne]
    · simp only [Transport.display, Transport.fromStr, if_true]
      rw [key _ _ (by decide)]; simp [hne]
  | restHttp tls host =>
    have hne := h tls host (by simp)
    cases tls
    · simp only [Transport.display, Transport.fromStr, Bool.false_eq_true, if_false, List.append_nil]
      rw [key _ _ (by decide)]; simp [hne]
    · simp only [Transport.display, Transport.fromStr, if_true]
      rw [key _ _ (by decide)]; simp [hne]
  | webSockets tls host =>
    have hne := h tls host (by simp)
    cases tls
    · simp only [Transport.display, Transport.fromStr, Bool.false_eq_true, if_false, List.append_nil]
      rw [key _ _ (by decide)]; simp [hne]
    · simp only [Transport.display, Transport.fromStr, if_true]
      rw [key _ _ (by decide)]; simp [hne]

theorem safeTransport_roundtrip {t : Transport} (h : SafeTransport t) : Transport.fromStr t.display = .ok t := by
  apply transport_roundtrip
  · rintro tls host (rfl | rfl | rfl) <;> exact h.1
  · rintro rfl; exact h

theorem safeTransport_text {t : Transport} (h : SafeTransport t) : ',' ∉ t.display ∧ SafeText t.display := by
  have key : ∀ (a host : Text), (∀ c ∈ a, c ≠ ',' ∧ c ∉ fragile) → ',' ∉ host → SafeText host →
      ',' ∉ a ++ host ∧ SafeText (a ++ host) := by
    intro a host ha h1 h2
    refine ⟨?_, ?_⟩
    · intro hm; rcases List.mem_append.mp hm with hm | hm
      · exact (ha _ hm).1 rfl
      · exact h1 hm
    · intro c hm; rcases List.mem_append.mp hm with hm | hm
      · exact (ha _ hm).2
      · exact h2 c hm
  cases t with
  | unspecified => exact absurd h (by simp [SafeTransport])
  | storm => refine ⟨by decide, ?_⟩; intro c hc; revert c; decide
  | jsonRpc tls host => cases tls <;> exact key _ _ (by decide) h.2.1 h.2.2
  | restHttp tls host => cases tls <;> exact key _ _ (by decide) h.2.1 h.2.2
  | webSockets tls host => cases tls <;> exact key _ _ (by decide) h.2.1 h.2.2

theorem parseTransports_map (ts : List Transport) (h : ∀ t ∈ ts, SafeTransport t) :
    parseTransports (ts.map Transport.display) = .ok ts := by
  induction ts with
  | nil => rfl
  | cons t ts ih =>
    simp only [List.map_cons, parseTransports, safeTransport_roundtrip (h t (by simp)), ih (fun x hx => h x (by simp [hx]))]

theorem safe_joinWith (ps : List Text) (h : ∀ p ∈ ps, SafeText p) : SafeText (joinWith ',' ps) := by
  induction ps with
  | nil => intro c hc; simp [joinWith] at hc
  | cons p ps ih =>
    cases ps with
    | nil => simpa [joinWith] using h p (by simp)
    | cons q qs =>
      intro c hc
      simp only [joinWith, List.mem_append, List.mem_cons] at hc
      rcases hc with hc | hc | hc
      · exact h p (by simp) c hc
      · subst hc; decide
      · exact ih (fun x hx => h x (by simp [hx])) c hc

theorem safe_showInt (e : Int) : SafeText (showInt e) := by
  intro c hc
  cases e with
  | ofNat n => exact (digit_pchar (showNat_digits _ _ hc)).2.2.1
  | negSucc n =>
    simp only [showInt, List.mem_cons] at hc
    rcases hc with rfl | hc
    · decide
    · exact (digit_pchar (showNat_digits _ _ hc)).2.2.1

/-! #### Segments -/

/-- Text of the state: non-empty unless void, legal in the path, parsed back. -/
theorem state_text {K : Codecs} {sp : Bool} (hK : K.Lawful sp) (st : InvoiceState) (hr : StateInRange st) (hv : st ≠ .void) :
    st.display K ≠ [] ∧ (∀ c ∈ st.display K, isPchar c = true ∧ c ≠ '+') ∧ InvoiceState.fromStr K sp (st.display K) = some st := by
  cases st with
  | void => exact absurd rfl hv
  | amount v =>
    have hs := Props.C01_amount_text_shape v
    refine ⟨hs.1, ?_, ?_⟩
    · intro c hc
      have : ∀ c ∈ "abcdefghkmnABCDEFGHKMNPQRSTVWXYZ".toList, isPchar c = true ∧ c ≠ '+' := by decide
      exact this c (hs.2.2 c hc)
    · simp only [InvoiceState.fromStr, InvoiceState.display, if_neg hs.1, Props.C01_amount_text_roundtrip sp v hr]
  | data a =>
    have hne : a.display ≠ [] := by simp [Allocation.display]
    have hat : '@' ∈ a.display := by simp [Allocation.display]
    refine ⟨hne, ?_, ?_⟩
    · intro c hc
      simp only [InvoiceState.display, Allocation.display, List.mem_append, List.mem_cons] at hc
      rcases hc with hc | hc | hc
      · have := digit_pchar (showNat_digits _ _ hc); exact ⟨this.1, this.2.1⟩
      · subst hc; decide
      · have := digit_pchar (showNat_digits _ _ hc); exact ⟨this.1, this.2.1⟩
    · have hna : Amount.fromStr sp a.display = none :=
        (Props.C01_amount_parse_rejects sp a.display).1 (Or.inl ⟨'@', hat, by decide⟩)
      simp only [InvoiceState.fromStr, InvoiceState.display, if_neg hne, hna, allocation_roundtrip a hr.1 hr.2]
  | attach id =>
    obtain ⟨ch, hch, hna⟩ := hK.attach_not_amount id
    have hne : K.showAttach id ≠ [] := by intro h; rw [h] at hch; simp at hch
    have hn : Amount.fromStr sp (K.showAttach id) = none :=
      (Props.C01_amount_parse_rejects sp _).1 (Or.inl ⟨ch, hch, hna⟩)
    have hat : '@' ∉ K.showAttach id := fun h => (hK.attach_chars id _ h).2.2 rfl
    refine ⟨hne, fun c hc => ⟨(hK.attach_chars id c hc).1, (hK.attach_chars id c hc).2.1⟩, ?_⟩
    have ha : Allocation.fromStr (K.showAttach id) = .error .wrongFormat := by
      unfold Allocation.fromStr; rw [if_pos hat]
    simp only [InvoiceState.fromStr, InvoiceState.display, if_neg hne, hn, ha, hK.attach_rt]

/-- Text of the beneficiary in either form -/
def benText (K : Codecs) (alt : Bool) (b : XChainNet Beneficiary) : Text :=
  if alt then dropDashes (displayBeneficiary K b) else displayBeneficiary K b

theorem chainNet_roundtrip (c : ChainNet) (h : c ≠ .liquidMainnet) : ChainNet.fromStr c.display = some c := by
  revert h; cases c <;> decide

theorem chainNet_display_clean (c : ChainNet) : ':' ∉ c.display ∧ dropDashes c.display = c.display ∧
    (∀ ch ∈ c.display, isPchar ch = true ∧ ch ≠ '+') := by cases c <;> decide

theorem with_chainNetwork {T} (x : XChainNet T) : XChainNet.with_ x.chainNetwork x.intoInner = x := by cases x <;> rfl

theorem dropDashes_append (a b : Text) : dropDashes (a ++ b) = dropDashes a ++ dropDashes b := List.filter_append ..

theorem mem_dropDashes {c : Char} {s : Text} (h : c ∈ dropDashes s) : c ∈ s := (List.mem_filter.mp h).1

theorem ben_text {K : Codecs} {sp : Bool} (hK : K.Lawful sp) (alt : Bool) (b : XChainNet Beneficiary)
    (hl : b.chainNetwork ≠ .liquidMainnet) :
    (∀ c ∈ benText K alt b, isPchar c = true ∧ c ≠ '+') ∧ parseBeneficiary K (benText K alt b) = .ok b := by
  have hcd := chainNet_display_clean b.chainNetwork
  have main : ∀ t : Text, benText K alt b = b.chainNetwork.display ++ ':' :: t → (∀ c ∈ t, isPchar c = true ∧ c ≠ '+') →
      (match K.parseSeal t with
      | some sl => Except.ok (XChainNet.with_ b.chainNetwork (.blindedSeal sl))
      | none => match K.parseVout t with
        | some p => .ok (XChainNet.with_ b.chainNetwork (.witnessVout p))
        | none => .error InvoiceErr.id) = Except.ok (XChainNet.with_ b.chainNetwork b.intoInner) →
      (∀ c ∈ benText K alt b, isPchar c = true ∧ c ≠ '+') ∧ parseBeneficiary K (benText K alt b) = .ok b := by
    intro t ht hc hp
    rw [ht]
    refine ⟨?_, ?_⟩
    · intro c hm
      simp only [List.mem_append, List.mem_cons] at hm
      rcases hm with hm | hm | hm
      · exact hcd.2.2 c hm
      · subst hm; decide
      · exact hc c hm
    · unfold parseBeneficiary
      rw [splitOnce_append _ _ _ hcd.1]
      simp only [chainNet_roundtrip _ hl]
      exact hp.trans (by rw [with_chainNetwork])
  have hdd : ∀ t : Text, dropDashes (b.chainNetwork.display ++ ':' :: t) = b.chainNetwork.display ++ ':' :: dropDashes t := by
    intro t
    rw [dropDashes_append, hcd.2.1]; rfl
  cases hb : b.intoInner with
  | blindedSeal sl =>
    cases alt
    · apply main (K.showSeal sl)
      · simp [benText, displayBeneficiary, hb]
      · exact hK.seal_chars sl
      · simp only [hK.seal_rt, hb]
    · apply main (dropDashes (K.showSeal sl))
      · simp only [benText, displayBeneficiary, hb, if_true]; exact hdd _
      · exact fun c hc => hK.seal_chars sl c (mem_dropDashes hc)
      · simp only [hK.seal_rt_nodash, hb]
  | witnessVout p =>
    cases alt
    · apply main (K.showVout p)
      · simp [benText, displayBeneficiary, hb]
      · exact hK.vout_chars p
      · simp only [hK.vout_not_seal, hK.vout_rt, hb]
    · apply main (dropDashes (K.showVout p))
      · simp only [benText, displayBeneficiary, hb, if_true]; exact hdd _
      · exact fun c hc => hK.vout_chars p c (mem_dropDashes hc)
      · simp only [hK.vout_not_seal_nodash, hK.vout_rt_nodash, hb]

/-- Contract segment text -/
def conText (K : Codecs) (alt : Bool) : Option Nat → Text
  | some c => if alt then dropDashes (K.showContract c) else K.showContract c
  | none => ['~']

theorem con_text {K : Codecs} {sp : Bool} (hK : K.Lawful sp) (alt : Bool) (c : Option Nat) :
    conText K alt c ≠ [] ∧ (∀ ch ∈ conText K alt c, isPchar ch = true) ∧ parseContractSeg K (conText K alt c) = .ok c := by
  cases c with
  | none =>
    refine ⟨by simp [conText], by intro ch hch; simp [conText] at hch; subst hch; decide, ?_⟩
    simp [parseContractSeg, conText, hK.contract_omitted]
  | some c =>
    cases alt
    · have h : conText K false (some c) = K.showContract c := by simp [conText]
      rw [h]
      refine ⟨?_, hK.contract_chars c, by simp [parseContractSeg, hK.contract_rt]⟩
      intro he; have := hK.contract_rt c; rw [he, hK.contract_empty] at this; cases this
    · have h : conText K true (some c) = dropDashes (K.showContract c) := by simp [conText]
      rw [h]
      refine ⟨?_, fun ch hch => hK.contract_chars c ch (mem_dropDashes hch), by simp [parseContractSeg, hK.contract_rt_nodash]⟩
      intro he; have := hK.contract_rt_nodash c; rw [he, hK.contract_empty] at this; cases this

/-- Interface segment text -/
def ifaceText : Option Text → Text
  | some n => n
  | none => ['~']

theorem iface_text {K : Codecs} {sp : Bool} (hK : K.Lawful sp) (n : Option Text) (h : ∀ m, n = some m → K.validTypeName m = true) :
    (∀ ch ∈ ifaceText n, isPchar ch = true) ∧ parseIfaceSeg K (ifaceText n) = .ok n := by
  cases n with
  | none =>
    refine ⟨by intro ch hch; simp [ifaceText] at hch; subst hch; decide, ?_⟩
    simp [parseIfaceSeg, ifaceText, hK.typename_omitted]
  | some m => exact ⟨hK.typename_chars m (h m rfl), by simp [parseIfaceSeg, ifaceText, h m rfl]⟩

/-- Assignment segment text -/
def assignText (K : Codecs) (alt : Bool) (i : Invoice) : Text :=
  (if (i.ownedState.display K).isEmpty then [] else i.ownedState.display K ++ ['+']) ++ benText K alt i.beneficiary

theorem assign_text {K : Codecs} {sp : Bool} (hK : K.Lawful sp) (alt : Bool) (i : Invoice) (h : i.WellFormed K) :
    (∀ c ∈ assignText K alt i, isPchar c = true) ∧
      parseAssignSeg K sp (assignText K alt i) = .ok (benText K alt i.beneficiary, i.ownedState) := by
  have hb := ben_text hK alt i.beneficiary h.notLiquid
  by_cases hv : i.ownedState = .void
  · have : assignText K alt i = benText K alt i.beneficiary := by simp [assignText, hv, InvoiceState.display]
    rw [this]
    refine ⟨fun c hc => (hb.1 c hc).1, ?_⟩
    unfold parseAssignSeg
    rw [(splitOnce_none _ _).mpr (fun hm => (hb.1 _ hm).2 rfl), hv]
  · have hs := state_text hK i.ownedState h.stateRange hv
    have hne : (i.ownedState.display K).isEmpty = false := by
      cases hd : i.ownedState.display K with
      | nil => exact absurd hd hs.1
      | cons _ _ => rfl
    have : assignText K alt i = i.ownedState.display K ++ '+' :: benText K alt i.beneficiary := by
      simp [assignText, hne]
    rw [this]
    refine ⟨?_, ?_⟩
    · intro c hc
      simp only [List.mem_append, List.mem_cons] at hc
      rcases hc with hc | hc | hc
      · exact (hs.2.1 c hc).1
      · subst hc; decide
      · exact (hb.1 c hc).1
    · unfold parseAssignSeg
      rw [splitOnce_append _ _ _ (fun hm => (hs.2.1 _ hm).2 rfl)]
      simp only [hs.2.2]

/-! #### Query of a well-formed invoice -/

/-- Expiry parameter -/
def expParam : Option Int → List (Text × Text)
  | some e => [("expiry".toList, showInt e)]
  | none => []

/-- Endpoints parameter -/
def epParam (ts : List Transport) : List (Text × Text) :=
  if ts = [.unspecified] then [] else [("endpoints".toList, joinWith ',' (ts.map Transport.display))]

/-- The two reserved parameters -/
def reserved (i : Invoice) : List (Text × Text) := expParam i.expiry ++ epParam i.transports

theorem mem_expParam {o : Option Int} {p : Text × Text} (h : p ∈ expParam o) : ∃ e, o = some e ∧ p = ("expiry".toList, showInt e) := by
  cases o with
  | none => simp [expParam] at h
  | some e => exact ⟨e, rfl, by simpa [expParam] using h⟩

theorem mem_epParam {ts : List Transport} {p : Text × Text} (h : p ∈ epParam ts) :
    ts ≠ [.unspecified] ∧ p = ("endpoints".toList, joinWith ',' (ts.map Transport.display)) := by
  unfold epParam at h
  by_cases ht : ts = [.unspecified]
  · simp [ht] at h
  · rw [if_neg ht] at h; exact ⟨ht, by simpa using h⟩

theorem reserved_keys (o : Option Int) (ts : List Transport) : ((expParam o ++ epParam ts).map Prod.fst).Nodup := by
  cases o <;> by_cases ht : ts = [.unspecified] <;> simp only [expParam, epParam, ht, if_true, if_false, List.map_append, List.map_cons, List.map_nil] <;> decide

theorem queryParams_eq {K : Codecs} {i : Invoice} (h : i.WellFormed K) :
    i.queryParams = reserved i ++ i.unknownQuery ∧ ((reserved i ++ i.unknownQuery).map Prod.fst).Nodup := by
  have hnd : ((reserved i ++ i.unknownQuery).map Prod.fst).Nodup := by
    rw [List.map_append, List.nodup_append]
    refine ⟨reserved_keys _ _, h.unknownKeys, ?_⟩
    intro a ha b hb hab
    subst hab
    obtain ⟨p, hp, rfl⟩ := List.mem_map.mp hb
    have hn := h.unknownNotReserved p hp
    obtain ⟨q, hq, hqp⟩ := List.mem_map.mp ha
    rcases List.mem_append.mp hq with hq | hq
    · obtain ⟨e, _, rfl⟩ := mem_expParam hq; exact hn.1 hqp.symm
    · obtain ⟨_, rfl⟩ := mem_epParam hq; exact hn.2 hqp.symm
  refine ⟨?_, hnd⟩
  unfold Invoice.queryParams
  simp only
  rw [← imExtend_fresh _ _ hnd]
  congr 1
  unfold reserved epParam
  cases i.expiry <;> by_cases ht : i.transports = [.unspecified] <;> simp only [ht, ne_eq, not_true, not_false_iff, if_true, if_false] <;> rfl

theorem reserved_safe {K : Codecs} {i : Invoice} (h : i.WellFormed K) : ∀ p ∈ reserved i, SafeText p.1 ∧ SafeText p.2 := by
  intro p hp
  have s1 : SafeText "expiry".toList := by unfold SafeText; decide
  have s2 : SafeText "endpoints".toList := by unfold SafeText; decide
  rcases List.mem_append.mp hp with hp | hp
  · obtain ⟨e, _, rfl⟩ := mem_expParam hp; exact ⟨s1, safe_showInt e⟩
  · obtain ⟨hne, rfl⟩ := mem_epParam hp
    refine ⟨s2, safe_joinWith _ ?_⟩
    rcases h.transports with ht | ht
    · exact absurd ht hne
    · intro q hq
      obtain ⟨t, ht', rfl⟩ := List.mem_map.mp hq
      exact (safeTransport_text (ht.2 t ht')).2

theorem hasParams_iff {K : Codecs} {i : Invoice} (h : i.WellFormed K) :
    i.hasParams = true ↔ i.queryParams ≠ [] := by
  rw [(queryParams_eq h).1]
  unfold Invoice.hasParams reserved epParam
  cases i.expiry <;> cases hu : i.unknownQuery <;> by_cases ht : i.transports = [.unspecified] <;> simp [ht, expParam]

theorem filter_ne_of_not_mem (l : List (Text × Text)) (k : Text) (h : ∀ p ∈ l, p.1 ≠ k) : l.filter (fun p => p.1 != k) = l := by
  apply List.filter_eq_self.mpr
  intro p hp; simpa using h p hp

theorem lookup_none_of_not_mem (l : List (Text × Text)) (k : Text) (h : ∀ p ∈ l, p.1 ≠ k) : l.lookup k = none := by
  induction l with
  | nil => rfl
  | cons p l ih =>
    obtain ⟨a, b⟩ := p
    have h1 : (k == a) = false := by simpa using fun e => h (a, b) (by simp) e.symm
    rw [List.lookup_cons, h1]
    exact ih (fun q hq => h q (by simp [hq]))

theorem lookup_append_left (l m : List (Text × Text)) (k : Text) (h : ∀ p ∈ m, p.1 ≠ k) : (l ++ m).lookup k = l.lookup k := by
  rw [List.lookup_append, lookup_none_of_not_mem m k h]; cases l.lookup k <;> rfl

theorem finishParse_ok {K : Codecs} {i : Invoice} (h : i.WellFormed K) :
    finishParse i.contract i.iface i.ownedState i.beneficiary (reserved i ++ i.unknownQuery) = .ok i := by
  have hu1 : ∀ p ∈ i.unknownQuery, p.1 ≠ "endpoints".toList := fun p hp => (h.unknownNotReserved p hp).2
  have hu2 : ∀ p ∈ i.unknownQuery, p.1 ≠ "expiry".toList := fun p hp => (h.unknownNotReserved p hp).1
  have hep : parseEndpoints ((reserved i).lookup "endpoints".toList) = .ok i.transports := by
    by_cases ht : i.transports = [.unspecified]
    · have : (reserved i).lookup "endpoints".toList = none := by
        unfold reserved epParam; rw [if_pos ht]; cases i.expiry <;> rfl
      rw [this, ht]; rfl
    · have : (reserved i).lookup "endpoints".toList = some (joinWith ',' (i.transports.map Transport.display)) := by
        unfold reserved epParam; rw [if_neg ht]; cases i.expiry <;> rfl
      rw [this]
      rcases h.transports with ht' | ht'
      · exact absurd ht' ht
      · unfold parseEndpoints
        simp only
        rw [splitAll_joinWith _ _ (by simpa using ht'.1)]
        · exact parseTransports_map _ ht'.2
        · intro p hp
          obtain ⟨t, hm, rfl⟩ := List.mem_map.mp hp
          exact (safeTransport_text (ht'.2 t hm)).1
  have hres1 : (reserved i).filter (fun p => p.1 != "endpoints".toList) = expParam i.expiry := by
    unfold reserved epParam
    cases i.expiry <;> by_cases ht : i.transports = [.unspecified] <;> simp only [ht, if_true, if_false] <;> rfl
  have hex : parseExpiry ((expParam i.expiry).lookup "expiry".toList) = .ok i.expiry := by
    cases he : i.expiry with
    | none => rfl
    | some e =>
      have hr := h.expiryRange e he
      simp only [expParam, List.lookup_cons, beq_self_eq_true, parseExpiry, parseI64_showInt e hr.1 hr.2]
  have hres2 : (expParam i.expiry).filter (fun p => p.1 != "expiry".toList) = [] := by
    cases i.expiry <;> rfl
  unfold finishParse imRemove
  simp only [List.filter_append, filter_ne_of_not_mem _ _ hu1, filter_ne_of_not_mem _ _ hu2, lookup_append_left _ _ _ hu1,
    lookup_append_left _ _ _ hu2, hres1, hep, hex, hres2, List.nil_append]
  have e1 := h.noOperation
  have e2 := h.noAssignment
  cases i
  simp_all

theorem display_eq {K : Codecs} {i : Invoice} (h : i.WellFormed K) (alt : Bool) :
    i.display K alt = "rgb:".toList ++ (conText K alt i.contract ++ '/' :: (ifaceText i.iface ++ '/' :: assignText K alt i)) ++
      qTail (if i.queryParams = [] then none else some (queryText i.queryParams)) := by
  have hp := hasParams_iff h
  unfold Invoice.display
  simp only [h.noOperation, h.noAssignment, List.nil_append]
  have hhp : i.hasParams = !i.queryParams.isEmpty := by
    cases hq : i.queryParams with
    | nil => simp only [hq, ne_eq, not_true, iff_false, Bool.not_eq_true] at hp; simp [hp]
    | cons p ps => simp only [hq, ne_eq, reduceCtorEq, not_false_iff, iff_true] at hp; simp [hp]
  rw [hhp]
  cases hq : i.queryParams <;> cases hc : i.contract <;> cases hi : i.iface <;> cases alt <;>
    simp [qTail, queryText, conText, ifaceText, assignText, benText, dropDashes]

theorem invoice_roundtrip {K : Codecs} {sp : Bool} (hK : K.Lawful sp) (i : Invoice) (h : i.WellFormed K) (alt : Bool) :
    Invoice.fromStr K sp (i.display K alt) = .ok i := by
  have hc := con_text hK alt i.contract
  have hi := iface_text hK i.iface h.ifaceValid
  have ha := assign_text hK alt i h
  have hqp := queryParams_eq h
  have hsafe : ∀ p ∈ i.queryParams, SafeText p.1 ∧ SafeText p.2 := by
    rw [hqp.1]
    intro p hp
    rcases List.mem_append.mp hp with hp | hp
    · exact reserved_safe h p hp
    · exact h.unknownSafe p hp
  have hpath : ∀ c ∈ conText K alt i.contract ++ '/' :: (ifaceText i.iface ++ '/' :: assignText K alt i), isPchar c = true ∨ c = '/' := by
    intro c hm
    simp only [List.mem_append, List.mem_cons] at hm
    rcases hm with hm | hm | hm | hm | hm
    · exact Or.inl (hc.2.1 c hm)
    · exact Or.inr hm
    · exact Or.inl (hi.1 c hm)
    · exact Or.inr hm
    · exact Or.inl (ha.1 c hm)
  have hhead : (conText K alt i.contract ++ '/' :: (ifaceText i.iface ++ '/' :: assignText K alt i)).head? ≠ some '/' := by
    cases hct : conText K alt i.contract with
    | nil => exact absurd hct hc.1
    | cons c cs =>
      simp only [List.cons_append, List.head?_cons, ne_eq, Option.some.injEq]
      exact (pchar_ne (hc.2.1 c (by simp [hct]))).2.2.2
  have hnoslash : ∀ t : Text, (∀ c ∈ t, isPchar c = true) → '/' ∉ t := fun t ht hm => (pchar_ne (ht _ hm)).2.2.2 rfl
  have hseg : segments (conText K alt i.contract ++ '/' :: (ifaceText i.iface ++ '/' :: assignText K alt i)) =
      [conText K alt i.contract, ifaceText i.iface, assignText K alt i] := by
    unfold segments
    rw [if_neg (by simp), splitAll_append _ _ _ (hnoslash _ hc.2.1), splitAll_append _ _ _ (hnoslash _ hi.1),
      splitAll_single _ _ (hnoslash _ ha.1)]
  have hmq : mapQueryParams (if i.queryParams = [] then none else some (queryText i.queryParams)) = .ok (reserved i ++ i.unknownQuery) := by
    split
    · rename_i he; rw [← hqp.1, he]; rfl
    · rename_i hne
      rw [mapQueryParams_queryText _ hne (by rw [hqp.1]; exact hqp.2), hqp.1]
      intro p hp
      exact ⟨fun hm => (hsafe p hp).1 _ hm (by decide), fun hm => (hsafe p hp).2 _ hm (by decide)⟩
  have hne : ¬ (i.contract.isSome = true ∧ i.iface.isNone = true) := by
    rintro ⟨h1, h2⟩
    have := h.contractHasIface h1
    cases hif : i.iface <;> simp [hif] at this h2
  rw [display_eq h alt]
  unfold Invoice.fromStr
  rw [Uri.parse_simple _ _ hpath hhead]
  · simp only [ne_eq, not_true, if_false, hhead, Bool.false_eq_true, or_self, hseg, hc.2.2, hi.2, hne, ha.2,
      (ben_text hK alt i.beneficiary h.notLiquid).2, hmq]
    exact finishParse_ok h
  · intro q hq
    split at hq
    · cases hq
    · cases hq; exact ⟨validPct_queryText _ hsafe, queryText_no_hash _⟩

end Rgb.Inv
