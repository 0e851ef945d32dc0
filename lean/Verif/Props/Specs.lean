import Verif.Lemmas.Specs

/-!
# C69, C70, C71: tickers, media types, specifications of assets

Models: Verif/Model/Specs.lean; vocabulary: Verif/Spec/Specs.lean.
-/

namespace Rgb.Props
open Rgb.Stl

/-! ## C69: tickers -/

/-- A text is a ticker exactly if it is a letter followed by at most seven letters and digits; the ticker is the text. -/
theorem C69_accepted (t u : Text) : ticker t = some u ↔ u = t ∧ IsTicker t := ticker_iff t u

/-- Tickers are equal exactly if they differ at most in the case of letters; so equality is reflexive, symmetric and transitive. -/
theorem C69_equality {a b : Text} (ha : IsTicker a) (hb : IsTicker b) : Ticker.eq a b = true ↔ SameIgnoringCase a b := by
  simp only [Ticker.eq, decide_eq_true_eq]
  exact map_upper_iff ha.chars hb.chars

theorem C69_equivalence : (∀ a, Ticker.eq a a = true) ∧ (∀ a b, Ticker.eq a b = true → Ticker.eq b a = true) ∧
    (∀ a b c, Ticker.eq a b = true → Ticker.eq b c = true → Ticker.eq a c = true) := by
  simp only [Ticker.eq, decide_eq_true_eq]
  exact ⟨fun _ => trivial, fun _ _ h => h.symm, fun _ _ _ h h' => h.trans h'⟩

/-- Equal tickers have equal hashes, whatever the hash function of strings is; so hash maps find a ticker in whatever case it is written.
With a collision-free one only equal tickers have. -/
theorem C69_hash (h : Text → Nat) (a b : Text) : (Ticker.eq a b = true → Ticker.hash h a = Ticker.hash h b) ∧
    ((∀ x y, h x = h y → x = y) → Ticker.hash h a = Ticker.hash h b → Ticker.eq a b = true) := by
  simp only [Ticker.eq, Ticker.hash, decide_eq_true_eq]
  exact ⟨fun e => by rw [e], fun hi e => hi _ _ e⟩

/-- The order of tickers is a total one, and tickers which compare as equal are equal. Missing: equal ones compare as equal; this
holds only for the same text (see `C69_order_fails`). -/
theorem C69_order_partial : (∀ a b, Ticker.cmp a b = .eq ↔ a = b) ∧ (∀ a b, Ticker.cmp b a = (Ticker.cmp a b).swap) ∧
    (∀ a b c, Ticker.cmp a b = .lt → Ticker.cmp b c = .lt → Ticker.cmp a c = .lt) ∧
    (∀ a b, Ticker.cmp a b = .eq → Ticker.eq a b = true) :=
  ⟨cmp_eq_iff, cmp_swap, cmp_trans, fun a b h => by rw [(cmp_eq_iff a b).mp h]; simp [Ticker.eq]⟩

/-- The order disagrees with equality: any two different spellings of a ticker are equal and still one is less than the other, so that an
ordered set or map keeps both. -/
theorem C69_order_fails : (∀ a b : Text, Ticker.eq a b = true → a ≠ b → Ticker.cmp a b ≠ .eq) ∧
    ∃ a b : Text, IsTicker a ∧ IsTicker b ∧ Ticker.eq a b = true ∧ Ticker.cmp a b = .lt := by
  refine ⟨fun a b _ h e => h ((cmp_eq_iff a b).mp e), "USDT".toList, "UsdT".toList, ?_, ?_, by decide, by decide⟩
  · exact ⟨'U', "SDT".toList, rfl, by decide, by decide, by decide⟩
  · exact ⟨'U', "sdT".toList, rfl, by decide, by decide, by decide⟩

example : IsTicker "USDT".toList ∧ IsTicker "usdt".toList ∧ SameIgnoringCase "USDT".toList "usdt".toList ∧ ticker "USDT".toList = some "USDT".toList :=
  ⟨⟨'U', "SDT".toList, rfl, by decide, by decide, by decide⟩, ⟨'u', "sdt".toList, rfl, by decide, by decide, by decide⟩,
    (map_upper_iff (by decide) (by decide)).mp (by decide), by decide⟩
example : ticker "1INCH".toList = none ∧ ticker "TOOLONGTICKER".toList = none ∧ ticker [] = none := by decide

/-! ## C70: media types -/

/-- What `with` accepts: a name, a slash, and a name or the asterisk; the charset is absent. It panics for every other text. -/
theorem C70_accepted (s : Text) (m : MediaType) : MediaType.with_ s = some m ↔
    m.charset = none ∧ IsRegName m.ty ∧ (∀ x, m.subtype = some x → IsRegName x) ∧ s = m.ty ++ '/' :: m.subtype.getD ['*'] := by
  unfold MediaType.with_
  simp only [Option.bind_eq_bind, Option.bind_eq_some_iff, Option.some.injEq]
  constructor
  · rintro ⟨⟨ty, sub⟩, hs, ty', ht, sub', hsub, rfl⟩
    obtain ⟨rfl, ht⟩ := (regName_iff _ _).mp ht
    have e := splitOnce_some hs
    unfold subtypeOf at hsub
    split at hsub
    · rename_i hstar
      cases hsub
      exact ⟨rfl, ht, (by simp), by rw [e, show sub = ['*'] from hstar]; rfl⟩
    · obtain ⟨u, hu, rfl⟩ := Option.map_eq_some_iff.mp hsub
      obtain ⟨rfl, hu⟩ := (regName_iff _ _).mp hu
      exact ⟨rfl, ht, (by intro x hx; cases hx; exact hu), e⟩
  · rintro ⟨hc, ht, hsub, rfl⟩
    refine ⟨(m.ty, m.subtype.getD ['*']), splitOnce_append ht.no_slash _, m.ty, (regName_iff _ _).mpr ⟨rfl, ht⟩, m.subtype, ?_, ?_⟩
    · cases h : m.subtype with
      | none => rfl
      | some x =>
        have hx := hsub x h
        simp only [Option.getD_some, subtypeOf, if_neg hx.no_star]
        rw [(regName_iff x x).mpr ⟨rfl, hx⟩]; rfl
    · rw [← hc]

/-- A valid media type is read back from its text exactly if it has no charset. Missing: those with a charset (see `C70_charset_fails`). -/
theorem C70_roundtrip_partial (m : MediaType) (ht : IsRegName m.ty) (hs : ∀ x, m.subtype = some x → IsRegName x) :
    MediaType.with_ m.display = some { m with charset := none } ∧ (MediaType.with_ m.display = some m ↔ m.charset = none) := by
  have h : MediaType.with_ m.display = some { m with charset := none } := (C70_accepted _ _).mpr ⟨rfl, ht, hs, rfl⟩
  refine ⟨h, ?_⟩
  rw [h, Option.some.injEq]
  constructor
  · intro e; rw [← e]
  · intro e; rw [← e]

/-- Different types or subtypes have different texts. -/
theorem C70_injective (m m' : MediaType) (ht : IsRegName m.ty) (hs : ∀ x, m.subtype = some x → IsRegName x)
    (ht' : IsRegName m'.ty) (hs' : ∀ x, m'.subtype = some x → IsRegName x) :
    m.display = m'.display ↔ m.ty = m'.ty ∧ m.subtype = m'.subtype := by
  constructor
  · intro e
    have h := (C70_roundtrip_partial m ht hs).1
    rw [e, (C70_roundtrip_partial m' ht' hs').1, Option.some.injEq] at h
    exact ⟨(congrArg MediaType.ty h).symm, (congrArg MediaType.subtype h).symm⟩
  · rintro ⟨e, e'⟩
    simp [MediaType.display, e, e']

/-- The charset isn't in the text: media types which differ in it have the same text, and no one with a charset is read back. -/
theorem C70_charset_fails (m : MediaType) (c : Text) (hm : m.charset = none) : ({ m with charset := some c } : MediaType).display = m.display ∧
    ({ m with charset := some c } : MediaType) ≠ m ∧ ∀ s, MediaType.with_ s ≠ some { m with charset := some c } := by
  refine ⟨rfl, ?_, ?_⟩
  · intro e; have := congrArg MediaType.charset e; rw [hm] at this; simp at this
  · intro s h; have := ((C70_accepted s _).mp h).1; simp at this

example : MediaType.with_ "image/svg+xml".toList = some ⟨"image".toList, some "svg+xml".toList, none⟩ ∧
    MediaType.with_ "text/*".toList = some ⟨"text".toList, none, none⟩ ∧ MediaType.with_ "text".toList = none ∧ MediaType.with_ "Text/plain".toList = none := by
  decide

/-! ## C71: specifications of assets and contracts -/

/-- Texts which may be details: from 1 to 255 bytes. -/
theorem C71_details (t u : Text) : details t = some u ↔ u = t ∧ 1 ≤ (t.map utf8Bytes).sum ∧ (t.map utf8Bytes).sum ≤ 255 := by
  unfold details confined utf8Len
  split
  · rename_i h; simp [h, eq_comm]
  · rename_i h; simp only [reduceCtorEq, false_iff]; rintro ⟨-, h'⟩; exact h h'

theorem optDetails_iff (d u : Option Text) : optDetails d = some u ↔ u = d ∧ ∀ t, d = some t → details t = some t := by
  cases d with
  | none => simp [optDetails, eq_comm]
  | some t =>
    simp only [optDetails, Option.map_eq_some_iff, Option.some.injEq, forall_eq']
    constructor
    · rintro ⟨v, hv, rfl⟩
      have := ((C71_details t v).mp hv).1
      subst this
      exact ⟨rfl, hv⟩
    · rintro ⟨rfl, h⟩; exact ⟨t, h, rfl⟩

/-- A specification of an asset is made exactly if all its texts may be used, and has exactly what was given. -/
theorem C71_asset (t n : Text) (p : Nat) (d : Option Text) (s : AssetSpec) : AssetSpec.with_ t n p d = some s ↔
    s = ⟨t, n, d, p⟩ ∧ IsTicker t ∧ IsName n ∧ ∀ x, d = some x → details x = some x := by
  unfold AssetSpec.with_
  simp only [Option.bind_eq_bind, Option.bind_eq_some_iff, Option.some.injEq, ticker_iff, name_iff, optDetails_iff]
  constructor
  · rintro ⟨_, ⟨rfl, h1⟩, _, ⟨rfl, h2⟩, _, ⟨rfl, h3⟩, rfl⟩
    exact ⟨rfl, h1, h2, h3⟩
  · rintro ⟨rfl, h1, h2, h3⟩
    exact ⟨t, ⟨rfl, h1⟩, n, ⟨rfl, h2⟩, d, ⟨rfl, h3⟩, rfl⟩

/-- The constructor for static texts panics exactly if the other one returns an error, and otherwise gives the same. -/
theorem C71_static (t n : Text) (p : Nat) : AssetSpec.new t n p = AssetSpec.with_ t n p none := by
  unfold AssetSpec.new AssetSpec.with_
  simp [optDetails]

/-- The same for specifications of contracts, which have an article instead of a ticker. -/
theorem C71_contract (a n : Text) (p : Nat) (d : Option Text) (s : ContractSpec) : ContractSpec.with_ a n p d = some s ↔
    s = ⟨some a, n, d, p⟩ ∧ IsArticle a ∧ IsName n ∧ ∀ x, d = some x → details x = some x := by
  unfold ContractSpec.with_
  simp only [Option.bind_eq_bind, Option.bind_eq_some_iff, Option.some.injEq, article_iff, name_iff, optDetails_iff]
  constructor
  · rintro ⟨_, ⟨rfl, h1⟩, _, ⟨rfl, h2⟩, _, ⟨rfl, h3⟩, rfl⟩
    exact ⟨rfl, h1, h2, h3⟩
  · rintro ⟨rfl, h1, h2, h3⟩
    exact ⟨a, ⟨rfl, h1⟩, n, ⟨rfl, h2⟩, d, ⟨rfl, h3⟩, rfl⟩

/-- Specifications are equal exactly if they agree in everything but the case of letters of the ticker. -/
theorem C71_equality (a b : AssetSpec) (ha : IsTicker a.ticker) (hb : IsTicker b.ticker) : AssetSpec.eq a b = true ↔
    SameIgnoringCase a.ticker b.ticker ∧ a.name = b.name ∧ a.details = b.details ∧ a.precision = b.precision := by
  simp [AssetSpec.eq, C69_equality ha hb, and_assoc]

example : AssetSpec.with_ "USDT".toList "Tether USD".toList 8 (some "ünïcode".toList) =
    some ⟨"USDT".toList, "Tether USD".toList, some "ünïcode".toList, 8⟩ ∧ AssetSpec.with_ "US DT".toList "x".toList 8 none = none ∧
    AssetSpec.with_ "USDT".toList "Tether USD".toList 8 (some []) = none := by decide

end Rgb.Props
