import Verif.Lemmas.Invoice
/-! What the invoice parser can return. -/
namespace Rgb
open Rgb

theorem charDigit_some {c : Char} {d : Nat} (h : charDigit c = some d) : d < 10 ∧ c = Char.ofNat (48 + d) := by
  unfold charDigit at h
  split at h
  · rename_i hc
    injection h with h
    have : 48 + d = c.toNat := by omega
    exact ⟨by omega, by rw [this, Char.ofNat_toNat]⟩
  · cases h

theorem parseDigits_iff (acc : Nat) (s : Text) (v : Nat) : parseDigits acc s = some v ↔
    ∃ ds : List Nat, (∀ d ∈ ds, d < 10) ∧ v = ds.foldl (fun a d => 10 * a + d) acc ∧ s = ds.map (fun d => Char.ofNat (48 + d)) := by
  induction s generalizing acc with
  | nil =>
    simp only [parseDigits, Option.some.injEq]
    constructor
    · rintro rfl; exact ⟨[], by simp, rfl, rfl⟩
    · rintro ⟨ds, _, hv, hs⟩
      have : ds = [] := by simpa using hs.symm
      subst this; simpa using hv.symm
  | cons c cs ih =>
    unfold parseDigits
    cases hc : charDigit c with
    | none =>
      simp only [reduceCtorEq, false_iff]
      rintro ⟨ds, hd, _, hs⟩
      cases ds with
      | nil => cases hs
      | cons d ds =>
        simp only [List.map_cons, List.cons.injEq] at hs
        have := charDigit_digitChar (hd d (by simp))
        rw [digitChar, ← hs.1, hc] at this; cases this
    | some d =>
      have hd := charDigit_some hc
      simp only [ih]
      constructor
      · rintro ⟨ds, h1, h2, h3⟩
        refine ⟨d :: ds, ?_, ?_, ?_⟩
        · intro x hx; rcases List.mem_cons.mp hx with rfl | hx
          · exact hd.1
          · exact h1 x hx
        · rw [List.foldl_cons, h2, Nat.mul_comm]
        · rw [List.map_cons, ← hd.2, h3]
      · rintro ⟨ds, h1, h2, h3⟩
        cases ds with
        | nil => cases h3
        | cons e ds =>
          simp only [List.map_cons, List.cons.injEq] at h3
          have : e = d := by
            have := charDigit_digitChar (h1 e (by simp))
            rw [digitChar, ← h3.1, hc] at this; exact (Option.some.inj this).symm
          subst this
          exact ⟨ds, fun x hx => h1 x (by simp [hx]), by rw [h2, List.foldl_cons, Nat.mul_comm], h3.2⟩

theorem parseUint_iff (max : Nat) (s : Text) (v : Nat) : parseUint max s = some v ↔ Inv.Numeral max s v := by
  have body : ∀ b : Text, parseBounded max b = some v ↔
      v ≤ max ∧ ∃ ds : List Nat, ds ≠ [] ∧ (∀ d ∈ ds, d < 10) ∧ v = ds.foldl (fun a d => 10 * a + d) 0 ∧
        b = ds.map (fun d => Char.ofNat (48 + d)) := by
    intro b
    unfold parseBounded
    by_cases hb : b = []
    · subst hb
      simp only [if_true, reduceCtorEq, false_iff]
      rintro ⟨_, ds, hne, _, _, h⟩
      cases ds with
      | nil => exact hne rfl
      | cons _ _ => simp at h
    · rw [if_neg hb]
      cases hp : parseDigits 0 b with
      | none =>
        simp only [reduceCtorEq, false_iff]
        rintro ⟨_, ds, _, h1, h2, h3⟩
        have := (parseDigits_iff 0 b v).mpr ⟨ds, h1, h2, h3⟩
        rw [hp] at this; cases this
      | some w =>
        simp only
        constructor
        · intro h
          split at h
          · rename_i hw
            cases h
            obtain ⟨ds, h1, h2, h3⟩ := (parseDigits_iff 0 b v).mp hp
            refine ⟨hw, ds, ?_, h1, h2, h3⟩
            rintro rfl; exact hb h3
          · cases h
        · rintro ⟨hv, ds, _, h1, h2, h3⟩
          have := (parseDigits_iff 0 b v).mpr ⟨ds, h1, h2, h3⟩
          rw [hp] at this; cases this
          rw [if_pos hv]
  have hplus : ∀ (ds : List Nat) (r : Text), (∀ d ∈ ds, d < 10) → '+' :: r ≠ ds.map (fun d => Char.ofNat (48 + d)) := by
    intro ds r hd h
    cases ds with
    | nil => cases h
    | cons d ds =>
      simp only [List.map_cons, List.cons.injEq] at h
      have := charDigit_digitChar (hd d (by simp))
      rw [digitChar, ← h.1, show charDigit '+' = none from by decide] at this; cases this
  unfold Inv.Numeral
  by_cases hs : ∃ rest, s = '+' :: rest
  · obtain ⟨rest, rfl⟩ := hs
    refine Iff.trans (body rest) ?_
    constructor
    · rintro ⟨h0, ds, h1, h2, h3, h4⟩; exact ⟨h0, ds, h1, h2, h3, Or.inr (by rw [h4])⟩
    · rintro ⟨h0, ds, h1, h2, h3, h4⟩
      refine ⟨h0, ds, h1, h2, h3, ?_⟩
      rcases h4 with h4 | h4
      · exact absurd h4 (hplus ds rest h2)
      · simpa using h4
  · have hu : stripPlus s = s := by
      unfold stripPlus; split
      · rename_i r; exact absurd ⟨r, rfl⟩ hs
      · rfl
    unfold parseUint
    rw [hu]
    refine Iff.trans (body s) ?_
    constructor
    · rintro ⟨h0, ds, h1, h2, h3, h4⟩; exact ⟨h0, ds, h1, h2, h3, Or.inl h4⟩
    · rintro ⟨h0, ds, h1, h2, h3, h4⟩
      refine ⟨h0, ds, h1, h2, h3, ?_⟩
      rcases h4 with h4 | h4
      · exact h4
      · exact absurd ⟨_, h4⟩ hs

theorem splitAll_no_sep (sep : Char) (s : Text) : ∀ p ∈ splitAll sep s, sep ∉ p := by
  induction s with
  | nil => simp [splitAll]
  | cons c cs ih =>
    intro p hp
    unfold splitAll at hp
    split at hp
    · rcases List.mem_cons.mp hp with rfl | hp
      · simp
      · exact ih p hp
    · rename_i hne
      split at hp
      · rename_i q qs heq
        rcases List.mem_cons.mp hp with rfl | hp
        · have := ih q (by rw [heq]; simp)
          simp only [List.mem_cons, not_or]; exact ⟨fun h => hne h.symm, this⟩
        · exact ih p (by rw [heq]; simp [hp])
      · rename_i heq; exact absurd heq (splitAll_ne_nil _ _)

theorem parseI64_range {s : Text} {e : Int} (h : parseI64 s = some e) : -(2 ^ 63) ≤ e ∧ e < 2 ^ 63 := by
  unfold parseI64 at h
  split at h
  · split at h
    · cases h
    · split at h
      · split at h
        · cases h; omega
        · cases h
      · cases h
  · split at h
    · rename_i v hv
      have := parseUint_le hv
      cases h; omega
    · cases h

end Rgb

namespace Rgb.Inv
open Rgb

theorem splitScheme_some {s a b : Text} (h : splitScheme s = some (a, b)) : s = a ++ "://".toList ++ b := by
  induction s generalizing a with
  | nil => cases h
  | cons c cs ih =>
    unfold splitScheme at h
    split at h
    · rename_i rest heq; injection h with h; injection h with h1 h2; subst h1 h2; rw [heq]; rfl
    · split at h
      · rename_i heq; injection h with h; injection h with h1 h2; subst h1 h2; rw [ih heq]; rfl
      · cases h

theorem transport_image {s : Text} {t : Transport} (h : Transport.fromStr s = .ok t) :
    (∃ host, host ≠ [] ∧ (∀ c ∈ host, c ∈ s) ∧ (t = .storm ∨ ∃ tls, t = .jsonRpc tls host ∨ t = .restHttp tls host ∨ t = .webSockets tls host)) := by
  unfold Transport.fromStr at h
  split at h
  · cases h
  · rename_i ty host hs
    have hsub : ∀ c ∈ host, c ∈ s := by intro c hc; rw [splitScheme_some hs]; simp [hc]
    split at h
    · cases h
    · rename_i hne
      refine ⟨host, hne, hsub, ?_⟩
      repeat' split at h
      all_goals first
        | cases h; done
        | (injection h with h; subst h; first | exact Or.inl rfl | exact Or.inr ⟨_, Or.inl rfl⟩ | exact Or.inr ⟨_, Or.inr (Or.inl rfl)⟩ | exact Or.inr ⟨_, Or.inr (Or.inr rfl)⟩)

theorem parseTransports_image {ss : List Text} {ts : List Transport} (h : parseTransports ss = .ok ts) :
    ts.length = ss.length ∧ ∀ t ∈ ts, ∃ s ∈ ss, Transport.fromStr s = .ok t := by
  induction ss generalizing ts with
  | nil => cases h; simp
  | cons s ss ih =>
    unfold parseTransports at h
    split at h
    · cases h
    · rename_i x hx
      split at h
      · cases h
      · rename_i xs hxs
        cases h
        have := ih hxs
        refine ⟨by simp [this.1], ?_⟩
        intro t ht
        rcases List.mem_cons.mp ht with rfl | ht
        · exact ⟨s, by simp, hx⟩
        · obtain ⟨s', hs', he⟩ := this.2 t ht; exact ⟨s', by simp [hs'], he⟩

theorem imInsert_keys (m : List (Text × Text)) (k v : Text) (h : (m.map Prod.fst).Nodup) :
    ((imInsert m k v).map Prod.fst).Nodup ∧ ∀ x, x ∈ (imInsert m k v).map Prod.fst → x = k ∨ x ∈ m.map Prod.fst := by
  induction m with
  | nil => simp [imInsert]
  | cons p m ih =>
    obtain ⟨k', v'⟩ := p
    simp only [List.map_cons, List.nodup_cons] at h
    unfold imInsert
    split
    · refine ⟨by simpa using h, ?_⟩
      intro x hx; right; simpa using hx
    · rename_i hne
      have := ih h.2
      refine ⟨?_, ?_⟩
      · simp only [List.map_cons, List.nodup_cons]
        refine ⟨?_, this.1⟩
        intro hm; rcases this.2 _ hm with h' | h'
        · exact hne h'
        · exact h.1 h'
      · intro x hx
        simp only [List.map_cons, List.mem_cons] at hx ⊢
        rcases hx with hx | hx
        · exact Or.inr (Or.inl hx)
        · rcases this.2 x hx with h' | h'
          · exact Or.inl h'
          · exact Or.inr (Or.inr h')

theorem mapQuery_nodup {q : Option Text} {r : List (Text × Text)} (h : mapQueryParams q = .ok r) : (r.map Prod.fst).Nodup := by
  unfold mapQueryParams at h
  split at h
  · cases h; simp
  · rename_i q
    suffices ∀ (ps : List Text) (m r : List (Text × Text)), (m.map Prod.fst).Nodup →
        ps.foldlM (m := Except InvoiceErr) (fun m p =>
          match splitOnce '=' p with
          | some (k, v) => match pctDecode k, pctDecode v with
            | some k, some v => .ok (imInsert m k v)
            | _, _ => .error .invalidQueryParam
          | none => .error .invalidQueryParam) m = .ok r → (r.map Prod.fst).Nodup from
      this _ [] r (by simp) h
    intro ps
    induction ps with
    | nil => intro m r hm h; cases h; exact hm
    | cons p ps ih =>
      intro m r hm h
      rw [List.foldlM_cons] at h
      cases hs : splitOnce '=' p with
      | none => rw [hs] at h; cases h
      | some kv =>
        obtain ⟨k, v⟩ := kv
        simp only [hs] at h
        cases hk : pctDecode k with
        | none => simp only [hk] at h; cases h
        | some k' =>
          cases hv : pctDecode v with
          | none => simp only [hk, hv] at h; cases h
          | some v' =>
            simp only [hk, hv] at h
            exact ih _ r (imInsert_keys m k' v' hm).1 h

theorem finishParse_image {c : Option Nat} {n : Option Text} {v : InvoiceState} {b : XChainNet Beneficiary} {q : List (Text × Text)}
    {i : Invoice} (hq : (q.map Prod.fst).Nodup) (h : finishParse c n v b q = .ok i) :
    i.contract = c ∧ i.iface = n ∧ i.ownedState = v ∧ i.beneficiary = b ∧ i.operation = none ∧ i.assignment = none ∧
    (i.transports = [.unspecified] ∨ (i.transports ≠ [] ∧ ∀ t ∈ i.transports, t = .storm ∨
      ∃ tls host, host ≠ [] ∧ ',' ∉ host ∧ (t = .jsonRpc tls host ∨ t = .restHttp tls host ∨ t = .webSockets tls host))) ∧
    (∀ e, i.expiry = some e → -(2 ^ 63) ≤ e ∧ e < 2 ^ 63) ∧
    (i.unknownQuery.map Prod.fst).Nodup ∧ (∀ p ∈ i.unknownQuery, p.1 ≠ "expiry".toList ∧ p.1 ≠ "endpoints".toList) := by
  unfold finishParse at h
  split at h
  · cases h
  · rename_i ts hts
    split at h
    · cases h
    · rename_i ex hex
      cases h
      refine ⟨rfl, rfl, rfl, rfl, rfl, rfl, ?_, ?_, ?_, ?_⟩
      · unfold parseEndpoints at hts
        split at hts
        · rename_i e _
          right
          have := parseTransports_image hts
          refine ⟨?_, ?_⟩
          · intro h0
            have h1 := this.1
            simp only at h0
            rw [h0] at h1
            exact splitAll_ne_nil ',' e (List.eq_nil_of_length_eq_zero h1.symm)
          · intro t ht
            obtain ⟨s, hs, he⟩ := this.2 t ht
            obtain ⟨host, h1, h2, h3⟩ := transport_image he
            rcases h3 with h3 | ⟨tls, h3⟩
            · exact Or.inl h3
            · exact Or.inr ⟨tls, host, h1, fun hc => splitAll_no_sep ',' e s hs (h2 _ hc), h3⟩
        · injection hts with hts; exact Or.inl hts.symm
      · intro e he
        simp only at he
        unfold parseExpiry at hex
        split at hex
        · split at hex
          · rename_i t ht
            injection hex with hex
            rw [he] at hex; injection hex with hex; subst hex
            exact parseI64_range ht
          · cases hex
        · injection hex with hex; rw [he] at hex; cases hex
      · simp only [imRemove]
        exact hq.sublist (List.Sublist.map _ (List.filter_sublist.trans List.filter_sublist))
      · intro p hp
        simp only [imRemove, List.mem_filter] at hp
        exact ⟨by simpa using hp.2, by simpa using hp.1.2⟩

theorem parseBeneficiary_net {K : Codecs} {s : Text} {b : XChainNet Beneficiary} (h : parseBeneficiary K s = .ok b) :
    ∃ pre rest, splitOnce ':' s = some (pre, rest) ∧ ChainNet.fromStr pre = some b.chainNetwork := by
  unfold parseBeneficiary at h
  split at h
  · cases h
  · rename_i cn t hs
    split at h
    · cases h
    · rename_i net hn
      refine ⟨cn, t, hs, ?_⟩
      repeat' split at h
      all_goals first
        | cases h; done
        | (injection h with h; subst h; rw [hn]; cases net <;> rfl)

theorem chainNet_image {s : Text} {c : ChainNet} (h : ChainNet.fromStr s = some c) :
    c ≠ .liquidMainnet ∧ (s.map Char.toLower = c.display ∨ (s.map Char.toLower = "lq".toList ∧ c = .bitcoinMainnet)) := by
  unfold ChainNet.fromStr at h
  simp only at h
  by_cases h1 : s.map Char.toLower = ChainNet.display .bitcoinMainnet
  · rw [if_pos h1] at h; cases h; exact ⟨by decide, Or.inl h1⟩
  rw [if_neg h1] at h
  by_cases h2 : s.map Char.toLower = ChainNet.display .bitcoinTestnet
  · rw [if_pos h2] at h; cases h; exact ⟨by decide, Or.inl h2⟩
  rw [if_neg h2] at h
  by_cases h3 : s.map Char.toLower = ChainNet.display .bitcoinSignet
  · rw [if_pos h3] at h; cases h; exact ⟨by decide, Or.inl h3⟩
  rw [if_neg h3] at h
  by_cases h4 : s.map Char.toLower = ChainNet.display .bitcoinRegtest
  · rw [if_pos h4] at h; cases h; exact ⟨by decide, Or.inl h4⟩
  rw [if_neg h4] at h
  by_cases h5 : s.map Char.toLower = ChainNet.display .liquidMainnet
  · rw [if_pos h5] at h; cases h; exact ⟨by decide, Or.inr ⟨h5, rfl⟩⟩
  rw [if_neg h5] at h
  by_cases h6 : s.map Char.toLower = ChainNet.display .liquidTestnet
  · rw [if_pos h6] at h; cases h; exact ⟨by decide, Or.inl h6⟩
  rw [if_neg h6] at h; cases h

theorem allocation_iff (s : Text) (a : Allocation) : Allocation.fromStr s = .ok a ↔
    ∃ f i, s = f ++ '@' :: i ∧ '@' ∉ f ∧ Numeral u64Max f a.fraction ∧ Numeral u32Max i a.tokenIndex := by
  unfold Allocation.fromStr
  constructor
  · intro h
    split at h
    · cases h
    · split at h
      · rename_i f i hs
        have := splitOnce_some hs
        split at h
        · cases h
        · rename_i iv hi
          split at h
          · cases h
          · rename_i fv hf
            cases h
            exact ⟨f, i, this.1, this.2, (parseUint_iff _ _ _).mp hf, (parseUint_iff _ _ _).mp hi⟩
      · cases h
  · rintro ⟨f, i, rfl, hn, hf, hi⟩
    rw [if_neg (by simp), splitOnce_append _ _ _ hn]
    simp only [(parseUint_iff _ _ _).mpr hf, (parseUint_iff _ _ _).mpr hi]

theorem state_image {K : Codecs} {sp : Bool} {s : Text} {st : InvoiceState} (h : InvoiceState.fromStr K sp s = some st) : StateInRange st := by
  unfold InvoiceState.fromStr at h
  split at h
  · cases h; trivial
  · split at h
    · rename_i v hv; cases h; exact (Props.C01_amount_parse_rejects sp s).2 v hv
    · split at h
      · rename_i a ha
        cases h
        obtain ⟨f, i, _, _, h1, h2⟩ := (allocation_iff s a).mp ha
        exact ⟨h1.1, h2.1⟩
      · split at h
        · cases h; trivial
        · cases h

theorem fromStr_image {K : Codecs} {sp : Bool} {s : Text} {i : Invoice} (h : Invoice.fromStr K sp s = .ok i) :
    i.operation = none ∧ i.assignment = none ∧ (∀ n, i.iface = some n → K.validTypeName n = true) ∧
    (i.contract.isSome → i.iface.isSome) ∧ i.beneficiary.chainNetwork ≠ .liquidMainnet ∧ StateInRange i.ownedState ∧
    (i.transports = [.unspecified] ∨ (i.transports ≠ [] ∧ ∀ t ∈ i.transports, t = .storm ∨
      ∃ tls host, host ≠ [] ∧ ',' ∉ host ∧ (t = .jsonRpc tls host ∨ t = .restHttp tls host ∨ t = .webSockets tls host))) ∧
    (∀ e, i.expiry = some e → -(2 ^ 63) ≤ e ∧ e < 2 ^ 63) ∧
    (i.unknownQuery.map Prod.fst).Nodup ∧ (∀ p ∈ i.unknownQuery, p.1 ≠ "expiry".toList ∧ p.1 ≠ "endpoints".toList) := by
  unfold Invoice.fromStr at h
  split at h
  · cases h
  rename_i uri _
  split at h
  · cases h
  split at h
  · cases h
  split at h
  · cases h
  split at h
  · cases h
  split at h
  · cases h
  rename_i contract _
  split at h
  · cases h
  split at h
  · cases h
  rename_i iface hif
  split at h
  · cases h
  rename_i hci
  split at h
  · cases h
  split at h
  · cases h
  rename_i bs value hval
  split at h
  · cases h
  rename_i ben hben
  split at h
  · cases h
  rename_i q hq
  obtain ⟨e1, e2, e3, e4, e5, e6, e7, e8, e9, e10⟩ := finishParse_image (mapQuery_nodup hq) h
  refine ⟨e5, e6, ?_, ?_, ?_, ?_, e7, e8, e9, e10⟩
  · intro n hn
    rw [e2] at hn; subst hn
    unfold parseIfaceSeg at hif
    split at hif
    · rename_i hv; injection hif with hif; injection hif with hif; subst hif; exact hv
    · split at hif <;> cases hif
  · intro hc
    rw [e1] at hc; rw [e2]
    cases iface with
    | some _ => rfl
    | none => exact absurd ⟨hc, rfl⟩ hci
  · obtain ⟨_, _, _, hn⟩ := parseBeneficiary_net hben
    rw [e4]; exact (chainNet_image hn).1
  · rw [e3]
    unfold parseAssignSeg at hval
    split at hval
    · split at hval
      · rename_i st hst; injection hval with hval; injection hval with _ hv; subst hv; exact state_image hst
      · cases hval
    · injection hval with hval; injection hval with _ hv; subst hv; trivial

end Rgb.Inv
