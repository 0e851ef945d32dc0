import Verif.Props.Batch
import Verif.Props.File
import Verif.Props.History
import Verif.Props.Iface
import Verif.Props.Invoice
import Verif.Props.Merge
import Verif.Props.Stash

/-! Smaller methods, of properties which are elsewhere. -/

namespace Rgb.Props
open Rgb

/-- **C07** (bitcoin networks). Each bitcoin network has its own prefix, except for the two testnets, which share one. -/
theorem C07_bitcoin_prefix {T : Type} (n : Inv.Network) (d : T) :
    ((Inv.XChainNet.bitcoin n d).chainNetwork.display = "bc".toList ↔ n = .mainnet) ∧
    ((Inv.XChainNet.bitcoin n d).chainNetwork.display = "tb".toList ↔ n = .testnet3 ∨ n = .testnet4) ∧
    ((Inv.XChainNet.bitcoin n d).chainNetwork.display = "sb".toList ↔ n = .signet) ∧
    ((Inv.XChainNet.bitcoin n d).chainNetwork.display = "bcrt".toList ↔ n = .regtest) := by
  cases n <;> simp only [Inv.XChainNet.bitcoin, Inv.XChainNet.chainNetwork] <;> decide

/-- The hexadecimal digit of a number, large or small. -/
def IsHexDigit (c : Char) (n : Nat) : Prop := "0123456789ABCDEF".toList[n]? = some c ∨ "0123456789abcdef".toList[n]? = some c

theorem hexVal_isHexDigit {c : Char} {n : Nat} (h : IsHexDigit c n) : Inv.hexVal c = some n := by
  have key : ∀ l : List Char, l = "0123456789ABCDEF".toList ∨ l = "0123456789abcdef".toList → l[n]? = some c → Inv.hexVal c = some n := by
    intro l hl h
    have hn : n < 16 := by
      have := (List.getElem?_eq_some_iff.1 h).1
      rcases hl with rfl | rfl <;> exact this
    rcases hl with rfl | rfl
    · have : ∀ n : Fin 16, ∀ c, "0123456789ABCDEF".toList[n.val]? = some c → Inv.hexVal c = some n.val := by
        intro n c h
        have : ("0123456789ABCDEF".toList[n.val]?).map (fun c => Inv.hexVal c) = some (some n.val) := by clear h; revert n; decide
        rw [h] at this; exact Option.some.inj this
      exact this ⟨n, hn⟩ c h
    · have : ∀ n : Fin 16, ∀ c, "0123456789abcdef".toList[n.val]? = some c → Inv.hexVal c = some n.val := by
        intro n c h
        have : ("0123456789abcdef".toList[n.val]?).map (fun c => Inv.hexVal c) = some (some n.val) := by clear h; revert n; decide
        rw [h] at this; exact Option.some.inj this
      exact this ⟨n, hn⟩ c h
  rcases h with h | h
  · exact key _ (.inl rfl) h
  · exact key _ (.inr rfl) h

/-- **C06** (escapes). A parameter of an invoice, written by whatever program with every byte escaped, in large or small hexadecimal digits, is read as
the text it stands for. -/
theorem C06_escapes (s : Text) (esc : UInt8 → Text)
    (h : ∀ b, ∃ hi lo, esc b = ['%', hi, lo] ∧ IsHexDigit hi (b.toNat / 16) ∧ IsHexDigit lo (b.toNat % 16)) :
    Inv.pctDecode ((s.flatMap String.utf8EncodeChar).flatMap esc) = some s := by
  have key : ∀ l : List UInt8, Inv.pctBytes (l.flatMap esc) = some l := by
    intro l
    induction l with
    | nil => rfl
    | cons b l ih =>
      obtain ⟨hi, lo, he, h1, h2⟩ := h b
      rw [List.flatMap_cons, he]
      simp only [List.cons_append, List.nil_append, Inv.pctBytes, hexVal_isHexDigit h1, hexVal_isHexDigit h2, ih]
      have : 16 * (b.toNat / 16) + b.toNat % 16 = b.toNat := by omega
      simp [this]
  unfold Inv.pctDecode
  rw [key]
  have : (s.flatMap String.utf8EncodeChar).toByteArray.utf8Decode? = some s.toArray := List.utf8Decode?_utf8Encode
  simp only [this]

example : Inv.pctDecode "%e2%82%AC%6a".toList = some "€j".toList := by decide +kernel

/-- What the scheme of a URI is: a letter, and then letters, digits, pluses, minuses and dots. -/
def IsScheme (a : Text) : Prop :=
  ∃ c cs, a = c :: cs ∧ c.isAlpha = true ∧ ∀ c' ∈ cs, c'.isAlphanum = true ∨ c' = '+' ∨ c' = '-' ∨ c' = '.'

/-- **C06** (scheme). Of the texts in which something stands before the first colon, only those where this is `rgb` are read as an invoice.
If it can't be the scheme of a URI, the text isn't taken for a URI. A text without a colon is never read as an invoice. -/
theorem C06_scheme (K : Inv.Codecs) (sp : Bool) (a rest : Text) (ha : ':' ∉ a ∧ '/' ∉ a ∧ '?' ∉ a ∧ '#' ∉ a) :
    (∀ i, Inv.Invoice.fromStr K sp (a ++ ':' :: rest) = .ok i → a = "rgb".toList) ∧
    (¬ IsScheme a → Inv.Invoice.fromStr K sp (a ++ ':' :: rest) = .error .uri) ∧
    (a ≠ "rgb".toList → IsScheme a → Inv.Invoice.fromStr K sp (a ++ ':' :: rest) = .error .uri ∨
      Inv.Invoice.fromStr K sp (a ++ ':' :: rest) = .error .invalidScheme) ∧
    (∀ i, Inv.Invoice.fromStr K sp a ≠ .ok i) := by
  obtain ⟨h1, h2, h3, h4⟩ := ha
  have pre : ∀ (sep : Char) (a l : Text), sep ∉ a → splitOnce sep (a ++ l) = (splitOnce sep l).map (fun p => (a ++ p.1, p.2)) := by
    intro sep a l hs
    induction a with
    | nil => simp
    | cons c a ih =>
      simp only [List.mem_cons, not_or] at hs
      simp only [List.cons_append, splitOnce, if_neg (Ne.symm hs.1), ih hs.2]
      cases splitOnce sep l <;> rfl
  have hv : Inv.validScheme a = true ↔ IsScheme a := by
    unfold Inv.validScheme IsScheme
    cases a with
    | nil => simp
    | cons c cs => simp [or_assoc]
  have hu : ∀ u, Inv.Uri.parse (a ++ ':' :: rest) = some u → u.scheme = some a ∧ IsScheme a := by
    intro u
    have e : ∀ (sep : Char) (r : Text), sep ∉ a → ':' ≠ sep →
        splitOnce sep (a ++ ':' :: r) = none ∨ ∃ r' f, splitOnce sep (a ++ ':' :: r) = some (a ++ ':' :: r', f) := by
      intro sep r hs hc
      rw [pre _ _ _ hs]
      simp only [splitOnce, if_neg hc]
      cases splitOnce sep r with
      | none => exact .inl rfl
      | some p => exact .inr ⟨_, _, rfl⟩
    by_cases hs : Inv.validScheme a = true
    · unfold Inv.Uri.parse
      intro h
      refine ⟨?_, hv.1 hs⟩
      rcases e '#' rest h4 (by decide) with e1 | ⟨r, f, e1⟩
      · rcases e '?' rest h3 (by decide) with e2 | ⟨r', q, e2⟩ <;>
          (simp only [e1, e2, splitOnce_append ':' a _ h1, if_neg h2, hs, if_true] at h
           split at h <;> rw [Option.ite_none_right_eq_some] at h <;> (obtain ⟨-, h⟩ := h; cases h; rfl))
      · rcases e '?' r h3 (by decide) with e2 | ⟨r', q, e2⟩ <;>
          (simp only [e1, e2, splitOnce_append ':' a _ h1, if_neg h2, hs, if_true] at h
           split at h <;> rw [Option.ite_none_right_eq_some] at h <;> (obtain ⟨-, h⟩ := h; cases h; rfl))
    · unfold Inv.Uri.parse
      intro h
      rcases e '#' rest h4 (by decide) with e1 | ⟨r, f, e1⟩
      · rcases e '?' rest h3 (by decide) with e2 | ⟨r', q, e2⟩ <;>
          (simp only [e1, e2, splitOnce_append ':' a _ h1, if_neg h2, hs, if_false] at h; cases h)
      · rcases e '?' r h3 (by decide) with e2 | ⟨r', q, e2⟩ <;>
          (simp only [e1, e2, splitOnce_append ':' a _ h1, if_neg h2, hs, if_false] at h; cases h)
  have hn : ∀ u, Inv.Uri.parse a = some u → u.scheme = none := by
    intro u
    unfold Inv.Uri.parse
    simp only [(splitOnce_none _ _).2 h4, (splitOnce_none _ _).2 h3, (splitOnce_none _ _).2 h1]
    intro h
    split at h <;> rw [Option.ite_none_right_eq_some] at h <;> (obtain ⟨-, h⟩ := h; cases h; rfl)
  refine ⟨fun i => ?_, fun hs => ?_, fun hr hs => ?_, fun i => ?_⟩
  · unfold Inv.Invoice.fromStr
    cases hp : Inv.Uri.parse (a ++ ':' :: rest) with
    | none => intro h; cases h
    | some u =>
      simp only [(hu u hp).1]
      intro h
      by_cases hr : a = "rgb".toList
      · exact hr
      · rw [if_pos hr] at h; cases h
  · unfold Inv.Invoice.fromStr
    cases hp : Inv.Uri.parse (a ++ ':' :: rest) with
    | none => rfl
    | some u => exact absurd (hu u hp).2 hs
  · unfold Inv.Invoice.fromStr
    cases hp : Inv.Uri.parse (a ++ ':' :: rest) with
    | none => exact .inl rfl
    | some u => right; simp [(hu u hp).1]; exact fun h => absurd h hr
  · unfold Inv.Invoice.fromStr
    cases hp : Inv.Uri.parse a with
    | none => simp
    | some u => simp [hn u hp]

example : ':' ∉ "rgb!".toList ∧ '/' ∉ "rgb!".toList ∧ '?' ∉ "rgb!".toList ∧ '#' ∉ "rgb!".toList := by decide

/-- **C06** (query). The query of an invoice is read as its pairs of key and value, and of pairs with the same key the last one counts:
it gives the value of each key which the library doesn't know, it gives the expiry and the transports, and there are no others. -/
theorem C06_query (K : Inv.Codecs) (sp : Bool) (a : Text) (ha : '?' ∉ a ∧ '#' ∉ a) {raw : List (Text × Text)} (hne : raw ≠ [])
    (hraw : ∀ p ∈ raw, ('=' ∉ p.1 ∧ '&' ∉ p.1 ∧ '#' ∉ p.1) ∧ '&' ∉ p.2 ∧ '#' ∉ p.2) {ps : List (Text × Text)}
    (hd : List.Forall₂ (fun r p => Inv.pctDecode r.1 = some p.1 ∧ Inv.pctDecode r.2 = some p.2) raw ps) {i : Inv.Invoice}
    (h : Inv.Invoice.fromStr K sp (a ++ '?' :: joinWith '&' (raw.map (fun p => p.1 ++ '=' :: p.2))) = .ok i) :
    (∀ k, k ≠ "endpoints".toList → k ≠ "expiry".toList → i.unknownQuery.lookup k = ps.reverse.lookup k) ∧
    (∀ e, ps.reverse.lookup "expiry".toList = some e → ∃ t, parseI64 e = some t ∧ i.expiry = some t) ∧
    (ps.reverse.lookup "expiry".toList = none → i.expiry = none) ∧
    (∀ e, ps.reverse.lookup "endpoints".toList = some e → Inv.parseTransports (splitAll ',' e) = .ok i.transports) ∧
    (ps.reverse.lookup "endpoints".toList = none → i.transports = [.unspecified]) := by
  have lc : ∀ (m : List (Text × Text)) (k v k' : Text), ((k, v) :: m).lookup k' = if k' = k then some v else m.lookup k' := by
    intro m k v k'
    by_cases e : k' = k
    · subst e; simp
    · simp only [List.lookup_cons, beq_eq_false_iff_ne.2 e, if_neg e]
  have hins : ∀ (m : List (Text × Text)) (k v k' : Text), (Inv.imInsert m k v).lookup k' = if k' = k then some v else m.lookup k' := by
    intro m k v k'
    induction m with
    | nil => simp only [Inv.imInsert, lc]
    | cons p m ih =>
      obtain ⟨k1, v1⟩ := p
      unfold Inv.imInsert
      by_cases e : k1 = k
      · subst e
        simp only [if_true, lc]; split <;> rfl
      · rw [if_neg e]
        simp only [lc, ih]
        by_cases e' : k' = k1
        · rw [if_pos e', if_pos e', if_neg (e' ▸ e)]
        · rw [if_neg e', if_neg e']
  have hfold : ∀ (raw ps m : List (Text × Text)), List.Forall₂ (fun r p => Inv.pctDecode r.1 = some p.1 ∧ Inv.pctDecode r.2 = some p.2) raw ps →
      (∀ p ∈ raw, '=' ∉ p.1) → ∃ q, (raw.map (fun p => p.1 ++ '=' :: p.2)).foldlM (m := Except Inv.InvoiceErr) (fun m p =>
        match splitOnce '=' p with
        | some (k, v) => match Inv.pctDecode k, Inv.pctDecode v with
          | some k, some v => .ok (Inv.imInsert m k v)
          | _, _ => .error .invalidQueryParam
        | none => .error .invalidQueryParam) m = .ok q ∧ ∀ k, q.lookup k = (ps.reverse.lookup k).or (m.lookup k) := by
    intro raw ps m hd
    induction hd generalizing m with
    | nil => exact fun _ => ⟨m, rfl, fun k => by simp⟩
    | @cons r p raw ps hrp _ ih =>
      intro hr
      obtain ⟨q, h1, h2⟩ := ih (Inv.imInsert m p.1 p.2) (fun p hp => hr p (List.mem_cons_of_mem _ hp))
      refine ⟨q, ?_, fun k => ?_⟩
      · simp only [List.map_cons, List.foldlM_cons, splitOnce_append '=' _ _ (hr r List.mem_cons_self), hrp.1, hrp.2]
        exact h1
      · rw [h2, hins, List.reverse_cons, List.lookup_append]
        obtain ⟨k1, v1⟩ := p
        simp only [lc, List.lookup_nil]
        cases ps.reverse.lookup k <;> by_cases e : k = k1 <;> simp [e]
  have hhash : '#' ∉ a ++ '?' :: joinWith '&' (raw.map (fun p => p.1 ++ '=' :: p.2)) := by
    have hj : ∀ l : List Text, (∀ p ∈ l, '#' ∉ p) → '#' ∉ joinWith '&' l := by
      intro l
      induction l with
      | nil => simp [joinWith]
      | cons p l ih =>
        intro hl
        cases l with
        | nil => exact hl p List.mem_cons_self
        | cons q l =>
          simp only [joinWith, List.mem_append, List.mem_cons, not_or]
          exact ⟨hl p List.mem_cons_self, by decide, ih (fun p hp => hl p (List.mem_cons_of_mem _ hp))⟩
    simp only [List.mem_append, List.mem_cons, not_or]
    refine ⟨ha.2, by decide, hj _ ?_⟩
    intro p hp
    obtain ⟨r, hr, rfl⟩ := List.mem_map.1 hp
    simp only [List.mem_append, List.mem_cons, not_or]
    exact ⟨(hraw r hr).1.2.2, by decide, (hraw r hr).2.2⟩
  have hq : ∀ u, Inv.Uri.parse (a ++ '?' :: joinWith '&' (raw.map (fun p => p.1 ++ '=' :: p.2))) = some u →
      u.query = some (joinWith '&' (raw.map (fun p => p.1 ++ '=' :: p.2))) := by
    intro u hu
    unfold Inv.Uri.parse at hu
    simp only [(splitOnce_none _ _).2 hhash, splitOnce_append '?' a _ ha.1] at hu
    split at hu
    · cases hu
    · split at hu <;> rw [Option.ite_none_right_eq_some] at hu <;> (obtain ⟨-, hu⟩ := hu; cases hu; rfl)
  obtain ⟨q, hq1, hq2⟩ := hfold raw ps [] hd (fun p hp => (hraw p hp).1.1)
  have hmap : Inv.mapQueryParams (some (joinWith '&' (raw.map (fun p => p.1 ++ '=' :: p.2)))) = .ok q := by
    unfold Inv.mapQueryParams
    simp only
    rw [splitAll_joinWith '&' _ (by simpa using hne)]
    · exact hq1
    · intro p hp
      obtain ⟨r, hr, rfl⟩ := List.mem_map.1 hp
      simp only [List.mem_append, List.mem_cons, not_or]
      exact ⟨(hraw r hr).1.2.1, by decide, (hraw r hr).2.1⟩
  have hfin : ∃ c n v b, Inv.finishParse c n v b q = .ok i := by
    unfold Inv.Invoice.fromStr at h
    split at h
    · cases h
    · rename_i u hu
      rw [hq u hu, hmap] at h
      repeat' split at h
      all_goals first | (cases h; done) | (rename_i hz; cases hz; exact ⟨_, _, _, _, h⟩)
  obtain ⟨c, n, v, b, hf⟩ := hfin
  have hl : ∀ (m : List (Text × Text)) (k k' : Text), (m.filter (fun p => p.1 != k)).lookup k' = if k' = k then none else m.lookup k' := by
    intro m k k'
    induction m with
    | nil => simp
    | cons p m ih =>
      obtain ⟨k1, v1⟩ := p
      by_cases e : k1 = k
      · subst e
        rw [List.filter_cons_of_neg (by simp), ih]
        rw [lc]; split <;> rfl
      · rw [List.filter_cons_of_pos (by simpa using e)]
        simp only [lc, ih]
        by_cases e' : k' = k1
        · rw [if_pos e', if_pos e', if_neg (e' ▸ e)]
        · rw [if_neg e', if_neg e']
  have hq2 : ∀ k, q.lookup k = ps.reverse.lookup k := fun k => by simpa using hq2 k
  unfold Inv.finishParse at hf
  simp only [Inv.imRemove, hl, hq2, if_neg (show "expiry".toList ≠ "endpoints".toList by decide)] at hf
  split at hf
  · cases hf
  · rename_i ts hts
    split at hf
    · cases hf
    · rename_i ex hex
      cases hf
      refine ⟨fun k h1 h2 => ?_, fun e he => ?_, fun he => ?_, fun e he => ?_, fun he => ?_⟩
      · simp only [hl, if_neg h1, if_neg h2, hq2]
      · rw [he] at hex
        unfold Inv.parseExpiry at hex
        simp only at hex
        split at hex
        · rename_i t ht; cases hex; exact ⟨t, ht, rfl⟩
        · cases hex
      · rw [he] at hex; cases hex; rfl
      · rw [he] at hts; exact hts
      · rw [he] at hts; cases hts; rfl

/-- A key given twice, the second time with an escape, and an expiry given twice. -/
example : ∃ i, Inv.Invoice.fromStr Inv.toyCodecs true ("rgb:~/~/tb:u-5".toList ++ '?' :: joinWith '&' (List.map (fun p : Text × Text => p.1 ++ '=' :: p.2)
      [("a".toList, "1".toList), ("expiry".toList, "5".toList), ("%61".toList, "%32".toList), ("expiry".toList, "7".toList)])) = .ok i ∧
    List.Forall₂ (fun r p : Text × Text => Inv.pctDecode r.1 = some p.1 ∧ Inv.pctDecode r.2 = some p.2)
      [("a".toList, "1".toList), ("expiry".toList, "5".toList), ("%61".toList, "%32".toList), ("expiry".toList, "7".toList)]
      [("a".toList, "1".toList), ("expiry".toList, "5".toList), ("a".toList, "2".toList), ("expiry".toList, "7".toList)] ∧
    i.unknownQuery = [("a".toList, "2".toList)] ∧ i.expiry = some 7 := by
  have h : (Inv.Invoice.fromStr Inv.toyCodecs true ("rgb:~/~/tb:u-5".toList ++ '?' :: joinWith '&' (List.map (fun p : Text × Text => p.1 ++ '=' :: p.2)
      [("a".toList, "1".toList), ("expiry".toList, "5".toList), ("%61".toList, "%32".toList), ("expiry".toList, "7".toList)]))).toOption.any (fun i =>
      decide (i.unknownQuery = [("a".toList, "2".toList)] ∧ i.expiry = some 7)) = true := by decide +kernel
  have hd : List.Forall₂ (fun r p : Text × Text => Inv.pctDecode r.1 = some p.1 ∧ Inv.pctDecode r.2 = some p.2)
      [("a".toList, "1".toList), ("expiry".toList, "5".toList), ("%61".toList, "%32".toList), ("expiry".toList, "7".toList)]
      [("a".toList, "1".toList), ("expiry".toList, "5".toList), ("a".toList, "2".toList), ("expiry".toList, "7".toList)] := by
    simp only [List.forall₂_cons, List.forall₂_nil_right_iff, and_true]
    decide +kernel
  cases e : Inv.Invoice.fromStr Inv.toyCodecs true ("rgb:~/~/tb:u-5".toList ++ '?' :: joinWith '&' (List.map (fun p : Text × Text => p.1 ++ '=' :: p.2)
      [("a".toList, "1".toList), ("expiry".toList, "5".toList), ("%61".toList, "%32".toList), ("expiry".toList, "7".toList)])) with
  | error _ => rw [e] at h; cases h
  | ok i => rw [e] at h; exact ⟨i, rfl, hd, of_decide_eq_true h⟩

/-- What follows the third part of the path of an invoice: nothing, more of the path, a query or a fragment. -/
def AfterPath (l : Text) : Prop := l = [] ∨ ∃ x r, l = x :: r ∧ (x = '/' ∨ x = '?' ∨ x = '#')

/-- The text of a beneficiary: the network, a colon, and either a blinded seal or (only if it isn't one) the output to be paid to. -/
def ReadsBeneficiary (K : Inv.Codecs) (b : Text) (x : Inv.XChainNet Inv.Beneficiary) : Prop :=
  ∃ n t, b = n ++ ':' :: t ∧ ':' ∉ n ∧ Inv.ChainNet.fromStr n = some x.chainNetwork ∧
    ((∃ sl, K.parseSeal t = some sl ∧ x.intoInner = .blindedSeal sl) ∨ (K.parseSeal t = none ∧ ∃ p, K.parseVout t = some p ∧ x.intoInner = .witnessVout p))

/-- **C06** (path). The path of an invoice is read part by part. The first part is a contract id, or `~` for none; the second the name of an interface, or `~`;
the third a state, a plus and a beneficiary, or a beneficiary alone. With any other text in one of these places the invoice isn't read, and neither is it
with a contract and no interface. -/
theorem C06_path (K : Inv.Codecs) (sp : Bool) (c f s tail : Text) (hc : '/' ∉ c ∧ '?' ∉ c ∧ '#' ∉ c) (hf : '/' ∉ f ∧ '?' ∉ f ∧ '#' ∉ f)
    (hs : '/' ∉ s ∧ '?' ∉ s ∧ '#' ∉ s) (ht : AfterPath tail) {i : Inv.Invoice}
    (h : Inv.Invoice.fromStr K sp ("rgb:".toList ++ (c ++ '/' :: (f ++ '/' :: (s ++ tail)))) = .ok i) :
    ((∃ x, K.parseContract c = some x ∧ i.contract = some x) ∨ (K.parseContract c = none ∧ c = ['~'] ∧ i.contract = none)) ∧
    ((K.validTypeName f = true ∧ i.iface = some f) ∨ (K.validTypeName f = false ∧ f = ['~'] ∧ i.iface = none ∧ i.contract = none)) ∧
    ((∃ a b, s = a ++ '+' :: b ∧ '+' ∉ a ∧ Inv.InvoiceState.fromStr K sp a = some i.ownedState ∧ ReadsBeneficiary K b i.beneficiary) ∨
      ('+' ∉ s ∧ i.ownedState = .void ∧ ReadsBeneficiary K s i.beneficiary)) := by
  have pre : ∀ (sep : Char) (a l : Text), sep ∉ a → splitOnce sep (a ++ l) = (splitOnce sep l).map (fun p => (a ++ p.1, p.2)) := by
    intro sep a l hs
    induction a with
    | nil => simp
    | cons c a ih =>
      simp only [List.mem_cons, not_or] at hs
      simp only [List.cons_append, splitOnce, if_neg (Ne.symm hs.1), ih hs.2]
      cases splitOnce sep l <;> rfl
  have cut : ∀ (sep : Char) (l a b : Text), AfterPath l → splitOnce sep l = some (a, b) → AfterPath a ∧ sep ∉ a ∧ ∀ x, x ∉ l → x ∉ a := by
    intro sep l a b hl h
    obtain ⟨rfl, hn⟩ := splitOnce_some h
    refine ⟨?_, hn, fun x hx ha => hx (List.mem_append_left _ ha)⟩
    cases a with
    | nil => exact .inl rfl
    | cons y a =>
      rcases hl with hl | ⟨x, r, hl, hx⟩
      · cases hl
      · simp only [List.cons_append, List.cons.injEq] at hl
        exact .inr ⟨y, a, rfl, hl.1 ▸ hx⟩
  generalize hP : c ++ '/' :: (f ++ '/' :: s) = P
  have hPn : '?' ∉ P ∧ '#' ∉ P := by
    subst hP
    simp [hc, hf, hs]
  have hT : "rgb:".toList ++ (c ++ '/' :: (f ++ '/' :: (s ++ tail))) = ("rgb:".toList ++ P) ++ tail := by
    subst hP; simp
  rw [hT] at h
  have h1 : '#' ∉ "rgb:".toList ++ P := by simp [hPn]
  have h2 : '?' ∉ "rgb:".toList ++ P := by simp [hPn]
  have hu : ∀ u, Inv.Uri.parse (("rgb:".toList ++ P) ++ tail) = some u → u.authority = true ∨ ∃ more, u.path = P ++ more ∧ (more = [] ∨ ∃ r, more = '/' :: r) := by
    intro u hu
    have last : ∀ more, AfterPath more → '#' ∉ more → '?' ∉ more → more = [] ∨ ∃ r, more = '/' :: r := by
      rintro more (rfl | ⟨x, r, rfl, rfl | rfl | rfl⟩) n1 n2
      · exact .inl rfl
      · exact .inr ⟨r, rfl⟩
      · exact absurd (List.mem_cons_self) n2
      · exact absurd (List.mem_cons_self) n1
    have e3 : ∀ l, splitOnce ':' (("rgb:".toList ++ P) ++ l) = some ("rgb".toList, P ++ l) := fun l => by
      rw [List.append_assoc]; exact splitOnce_append ':' "rgb".toList (P ++ l) (by decide)
    have e4 : '/' ∉ "rgb".toList := by decide
    have e5 : Inv.validScheme "rgb".toList = true := by decide
    unfold Inv.Uri.parse at hu
    cases e : splitOnce '#' tail with
    | none =>
      have n1 := (splitOnce_none _ _).1 e
      simp only [pre _ _ _ h1, e, Option.map_none] at hu
      cases e' : splitOnce '?' tail with
      | none =>
        simp only [pre _ _ _ h2, e', Option.map_none, e3, if_neg e4, e5, if_true] at hu
        split at hu <;>
          (rw [Option.ite_none_right_eq_some] at hu; obtain ⟨-, hu⟩ := hu; cases hu; first | exact .inl rfl | exact .inr ⟨_, rfl, last tail ht n1 ((splitOnce_none _ _).1 e')⟩)
      | some p =>
        obtain ⟨c1, c2, c3⟩ := cut _ _ _ _ ht e'
        simp only [pre _ _ _ h2, e', Option.map_some, e3, if_neg e4, e5, if_true] at hu
        split at hu <;>
          (rw [Option.ite_none_right_eq_some] at hu; obtain ⟨-, hu⟩ := hu; cases hu; first | exact .inl rfl | exact .inr ⟨_, rfl, last p.1 c1 (c3 _ n1) c2⟩)
    | some p =>
      obtain ⟨c1, c2, c3⟩ := cut _ _ _ _ ht e
      simp only [pre _ _ _ h1, e, Option.map_some] at hu
      cases e' : splitOnce '?' p.1 with
      | none =>
        simp only [pre _ _ _ h2, e', Option.map_none, e3, if_neg e4, e5, if_true] at hu
        split at hu <;>
          (rw [Option.ite_none_right_eq_some] at hu; obtain ⟨-, hu⟩ := hu; cases hu; first | exact .inl rfl | exact .inr ⟨_, rfl, last p.1 c1 c2 ((splitOnce_none _ _).1 e')⟩)
      | some p' =>
        obtain ⟨d1, d2, d3⟩ := cut _ _ _ _ c1 e'
        simp only [pre _ _ _ h2, e', Option.map_some, e3, if_neg e4, e5, if_true] at hu
        split at hu <;>
          (rw [Option.ite_none_right_eq_some] at hu; obtain ⟨-, hu⟩ := hu; cases hu; first | exact .inl rfl | exact .inr ⟨_, rfl, last p'.1 d1 (d3 _ c2) d2⟩)
  have hseg : ∀ more : Text, (more = [] ∨ ∃ r, more = '/' :: r) → ∃ l, Inv.segments (P ++ more) = c :: f :: s :: l := by
    intro more hm
    subst hP
    unfold Inv.segments
    rw [if_neg (by simp)]
    rcases hm with rfl | ⟨r, rfl⟩
    · rw [List.append_nil, splitAll_append _ _ _ hc.1, splitAll_append _ _ _ hf.1, splitAll_single _ _ hs.1]
      exact ⟨[], rfl⟩
    · simp only [List.append_assoc, List.cons_append]
      rw [splitAll_append _ _ _ hc.1, splitAll_append _ _ _ hf.1, splitAll_append _ _ _ hs.1]
      exact ⟨_, rfl⟩
  have hben : ∀ b x, Inv.parseBeneficiary K b = .ok x → ReadsBeneficiary K b x := by
    intro b x hb
    unfold Inv.parseBeneficiary at hb
    split at hb
    · cases hb
    · rename_i n t e
      split at hb
      · cases hb
      · rename_i cn e2
        obtain ⟨rfl, hn⟩ := splitOnce_some e
        have hw : ∀ y : Inv.Beneficiary, (Inv.XChainNet.with_ cn y).chainNetwork = cn ∧ (Inv.XChainNet.with_ cn y).intoInner = y := by
          intro y; cases cn <;> exact ⟨rfl, rfl⟩
        split at hb
        · rename_i sl e3
          cases hb
          exact ⟨n, t, rfl, hn, by rw [(hw _).1]; exact e2, .inl ⟨sl, e3, (hw _).2⟩⟩
        · rename_i e3
          split at hb
          · rename_i p e4
            cases hb
            exact ⟨n, t, rfl, hn, by rw [(hw _).1]; exact e2, .inr ⟨e3, p, e4, (hw _).2⟩⟩
          · cases hb
  unfold Inv.Invoice.fromStr at h
  split at h
  · cases h
  rename_i u hpu
  split at h
  · cases h
  split at h
  · cases h
  split at h
  · cases h
  rename_i hno
  simp only [not_or] at hno
  obtain ⟨more, hm1, hm2⟩ := (hu u hpu).resolve_left hno.2
  obtain ⟨l, hl⟩ := hseg more hm2
  simp only [hm1, hl] at h
  split at h
  · cases h
  rename_i contract hcon
  split at h
  · cases h
  rename_i iface hif
  split at h
  · cases h
  rename_i hci
  split at h
  · cases h
  rename_i bs value has
  split at h
  · cases h
  rename_i ben hbe
  split at h
  · cases h
  have hi : i.contract = contract ∧ i.iface = iface ∧ i.ownedState = value ∧ i.beneficiary = ben := by
    unfold Inv.finishParse at h
    repeat' split at h
    all_goals first | (cases h; done) | (cases h; exact ⟨rfl, rfl, rfl, rfl⟩)
  obtain ⟨rfl, rfl, rfl, rfl⟩ := hi
  refine ⟨?_, ?_, ?_⟩
  · unfold Inv.parseContractSeg at hcon
    split at hcon
    · rename_i x hx; exact .inl ⟨x, hx, (Except.ok.inj hcon).symm⟩
    · rename_i hx
      split at hcon
      · rename_i hx'; exact .inr ⟨hx, hx', (Except.ok.inj hcon).symm⟩
      · cases hcon
  · unfold Inv.parseIfaceSeg at hif
    split at hif
    · rename_i hx; exact .inl ⟨hx, (Except.ok.inj hif).symm⟩
    · rename_i hx
      split at hif
      · rename_i hx'
        have e := (Except.ok.inj hif).symm
        refine .inr ⟨by simpa using hx, hx', e, ?_⟩
        rw [e] at hci
        simpa using hci
      · cases hif
  · unfold Inv.parseAssignSeg at has
    split at has
    · rename_i a b e
      obtain ⟨e1, e2⟩ := splitOnce_some e
      split at has
      · rename_i st hst
        have := Except.ok.inj has
        simp only [Prod.mk.injEq] at this
        obtain ⟨rfl, rfl⟩ := this
        exact .inl ⟨a, b, e1, e2, hst, hben _ _ hbe⟩
      · cases has
    · rename_i e
      have := Except.ok.inj has
      simp only [Prod.mk.injEq] at this
      obtain ⟨rfl, hv⟩ := this
      exact .inr ⟨(splitOnce_none _ _).1 e, hv.symm, hben _ _ hbe⟩

example : ∃ i c f t, Inv.Invoice.fromStr Inv.toyCodecs true ("rgb:".toList ++ (c ++ '/' :: (f ++ '/' :: (t ++ "/x?a=b#y".toList)))) = .ok i ∧
    ('/' ∉ c ∧ '?' ∉ c ∧ '#' ∉ c) ∧ ('/' ∉ f ∧ '?' ∉ f ∧ '#' ∉ f) ∧ ('/' ∉ t ∧ '?' ∉ t ∧ '#' ∉ t) ∧ AfterPath "/x?a=b#y".toList ∧ i.contract.isSome = true := by
  have h : (Inv.Invoice.fromStr Inv.toyCodecs true ("rgb:".toList ++ (Inv.toyCodecs.showContract 3 ++ '/' :: ("RGB20".toList ++ '/' ::
      ("tb:u-5".toList ++ "/x?a=b#y".toList))))).toOption.any (fun i => i.contract.isSome) = true := by decide +kernel
  cases e : Inv.Invoice.fromStr Inv.toyCodecs true ("rgb:".toList ++ (Inv.toyCodecs.showContract 3 ++ '/' :: ("RGB20".toList ++ '/' ::
      ("tb:u-5".toList ++ "/x?a=b#y".toList)))) with
  | error _ => rw [e] at h; cases h
  | ok i =>
    rw [e] at h
    exact ⟨i, _, _, _, e, by decide +kernel, by decide, by decide, .inr ⟨'/', _, rfl, .inl rfl⟩, h⟩

/-- **C06** (rest of the path). Whatever follows the third part of the path, and the fragment, is ignored: the invoice is the same as without it. -/
theorem C06_ignored (K : Inv.Codecs) (sp : Bool) (c f s m : Text) (hc : '/' ∉ c ∧ '?' ∉ c ∧ '#' ∉ c) (hf : '/' ∉ f ∧ '?' ∉ f ∧ '#' ∉ f)
    (hs : '/' ∉ s ∧ '?' ∉ s ∧ '#' ∉ s) (hm : ∀ x ∈ m, x.isAlphanum = true ∨ x = '/') {i : Inv.Invoice}
    (h : Inv.Invoice.fromStr K sp ("rgb:".toList ++ (c ++ '/' :: (f ++ '/' :: s))) = .ok i) :
    Inv.Invoice.fromStr K sp ("rgb:".toList ++ (c ++ '/' :: (f ++ '/' :: (s ++ '/' :: m)))) = .ok i ∧
    Inv.Invoice.fromStr K sp ("rgb:".toList ++ (c ++ '/' :: (f ++ '/' :: (s ++ '#' :: m)))) = .ok i := by
  have hcat : ∀ (ok : Char → Bool) (p r : Text), Inv.validPct ok p = true → Inv.validPct ok (p ++ r) = Inv.validPct ok r := by
    intro ok p r
    fun_induction Inv.validPct ok p with
    | case1 => simp
    | case2 a b cs ih => intro h; simp only [Bool.and_eq_true] at h; simp [Inv.validPct, h.1.1, h.1.2, ih h.2]
    | case3 => intro h; cases h
    | case4 x xs h1 h2 ih =>
      intro h
      simp only [Bool.and_eq_true] at h
      rw [List.cons_append, Inv.validPct_keep ok h2, h.1, ih h.2, Bool.true_and]
  generalize hP : c ++ '/' :: (f ++ '/' :: s) = P at h
  have hT : ∀ t, "rgb:".toList ++ (c ++ '/' :: (f ++ '/' :: (s ++ t))) = "rgb:".toList ++ (P ++ t) := by
    intro t; subst hP; simp
  rw [hT, hT]
  have hPn : '?' ∉ P ∧ '#' ∉ P := by
    subst hP
    simp [hc, hf, hs]
  have hmx : ∀ x ∈ m, x ≠ '#' ∧ x ≠ '?' ∧ x ≠ '%' ∧ (Inv.isPchar x || x == '/') = true ∧ (Inv.isPchar x || x == '/' || x == '?') = true := by
    intro x hx
    rcases hm x hx with h | rfl
    · have : x ≠ '#' ∧ x ≠ '?' ∧ x ≠ '%' := by
        refine ⟨?_, ?_, ?_⟩ <;> (rintro rfl; revert h; decide)
      have hp : Inv.isPchar x = true := by
        simp only [Char.isAlphanum, Char.isAlpha, Char.isUpper, Char.isLower, Char.isDigit, Bool.or_eq_true, Bool.and_eq_true, decide_eq_true_eq] at h
        simp only [Inv.isPchar, Bool.or_eq_true, Bool.and_eq_true, decide_eq_true_eq, Char.toNat]
        simp only [ge_iff_le, UInt32.le_iff_toNat_le] at h
        rcases h with (h | h) | h
        · simp [show 65 ≤ x.toNat ∧ x.toNat ≤ 90 from h]
        · simp [show 97 ≤ x.toNat ∧ x.toNat ≤ 122 from h]
        · simp [show 48 ≤ x.toNat ∧ x.toNat ≤ 57 from h]
      exact ⟨this.1, this.2.1, this.2.2, by simp [hp], by simp [hp]⟩
    · decide
  have e1 : ∀ l, '#' ∉ l → splitOnce '#' ("rgb:".toList ++ (P ++ l)) = none := fun l hl => (splitOnce_none _ _).2 (by simp [hPn, hl])
  have e2 : ∀ l, '?' ∉ l → splitOnce '?' ("rgb:".toList ++ (P ++ l)) = none := fun l hl => (splitOnce_none _ _).2 (by simp [hPn, hl])
  have e3 : ∀ l, splitOnce ':' ("rgb:".toList ++ l) = some ("rgb".toList, l) := fun l => splitOnce_append ':' "rgb".toList l (by decide)
  have e4 : '/' ∉ "rgb".toList := by decide
  have e5 : Inv.validScheme "rgb".toList = true := by decide
  have e6 : splitOnce '#' ("rgb:".toList ++ (P ++ '#' :: m)) = some ("rgb:".toList ++ P, m) := by
    rw [← List.append_assoc]; exact splitOnce_append _ _ _ (by simp [hPn])
  have e1' := e1 [] (by simp)
  have e2' := e2 [] (by simp)
  rw [List.append_nil] at e1' e2'
  have hv1 : Inv.validPct (fun c => Inv.isPchar c || c == '/') ('/' :: m) = true :=
    Inv.validPct_of_all _ _ (by intro x hx; rcases List.mem_cons.1 hx with rfl | hx; · decide
                                exact (hmx x hx).2.2.2.1) (by simpa using fun hx => (hmx _ hx).2.2.1 rfl)
  have hv2 : Inv.validPct (fun c => Inv.isPchar c || c == '/' || c == '?') m = true :=
    Inv.validPct_of_all _ _ (fun x hx => (hmx x hx).2.2.2.2) (fun hx => (hmx _ hx).2.2.1 rfl)
  -- the text is read as this path
  obtain ⟨hhead, hval, hu⟩ : P.head? ≠ some '/' ∧ Inv.validPct (fun c => Inv.isPchar c || c == '/') P = true ∧
      Inv.Uri.parse ("rgb:".toList ++ P) = some ⟨some "rgb".toList, false, P, none⟩ := by
    have h' := h
    unfold Inv.Invoice.fromStr at h'
    split at h'
    · cases h'
    rename_i u hu
    split at h'
    · cases h'
    split at h'
    · cases h'
    split at h'
    · cases h'
    rename_i hno
    simp only [not_or] at hno
    have hu' := hu
    unfold Inv.Uri.parse at hu'
    simp only [e1', e2', e3, if_neg e4, e5, if_true] at hu'
    split at hu'
    · rw [Option.ite_none_right_eq_some] at hu'; obtain ⟨-, hu'⟩ := hu'; cases hu'; exact absurd rfl hno.2
    · rw [Option.ite_none_right_eq_some] at hu'; obtain ⟨h3, hu'⟩ := hu'; cases hu'
      simp only [Bool.and_eq_true] at h3
      exact ⟨hno.1, h3.1.1, hu⟩
  obtain ⟨x, P', hP', hx⟩ : ∃ x P', P = x :: P' ∧ x ≠ '/' := by
    cases P with
    | nil => simp at hP
    | cons x P' => exact ⟨x, P', rfl, by simpa using hhead⟩
  have hsegP : Inv.segments P = [c, f, s] := by
    subst hP
    unfold Inv.segments
    rw [if_neg (by simp), splitAll_append _ _ _ hc.1, splitAll_append _ _ _ hf.1, splitAll_single _ _ hs.1]
  have hsegM : Inv.segments (P ++ '/' :: m) = c :: f :: s :: splitAll '/' m := by
    subst hP
    unfold Inv.segments
    rw [if_neg (by simp)]
    simp only [List.append_assoc, List.cons_append]
    rw [splitAll_append _ _ _ hc.1, splitAll_append _ _ _ hf.1, splitAll_append _ _ _ hs.1]
  have e7 : '#' ∉ '/' :: m := by simpa using fun hx => (hmx _ hx).1 rfl
  have e8 : '?' ∉ '/' :: m := by simpa using fun hx => (hmx _ hx).2.1 rfl
  have hu1 : Inv.Uri.parse ("rgb:".toList ++ (P ++ '/' :: m)) = some ⟨some "rgb".toList, false, P ++ '/' :: m, none⟩ := by
    unfold Inv.Uri.parse
    simp only [e1 _ e7, e2 _ e8, e3, if_neg e4, e5, if_true]
    split
    · rename_i r hr
      rw [hP', List.cons_append] at hr
      exact absurd (List.cons.inj hr).1 hx
    · simp [hcat _ P _ hval, hv1, Inv.validPct]
  have hu2 : Inv.Uri.parse ("rgb:".toList ++ (P ++ '#' :: m)) = some ⟨some "rgb".toList, false, P, none⟩ := by
    unfold Inv.Uri.parse
    simp only [e6, e2', e3, if_neg e4, e5, if_true]
    split
    · exact absurd (List.cons.inj hP').1.symm hx
    · simp [hval, hv2]
  have hh : (P ++ '/' :: m).head? = P.head? := by rw [hP']; rfl
  constructor
  · rw [← h]
    unfold Inv.Invoice.fromStr
    simp only [hu, hu1, hh, hsegP, hsegM]
  · rw [← h]
    unfold Inv.Invoice.fromStr
    simp only [hu, hu2]

example : ∃ i, Inv.Invoice.fromStr Inv.toyCodecs true ("rgb:".toList ++ (['~'] ++ '/' :: (['~'] ++ '/' :: "tb:u-5".toList))) = .ok i ∧
    ∀ x ∈ "x/7".toList, x.isAlphanum = true ∨ x = '/' := by
  have h : (Inv.Invoice.fromStr Inv.toyCodecs true ("rgb:".toList ++ (['~'] ++ '/' :: (['~'] ++ '/' :: "tb:u-5".toList)))).toOption.isSome = true := by decide +kernel
  cases e : Inv.Invoice.fromStr Inv.toyCodecs true ("rgb:".toList ++ (['~'] ++ '/' :: (['~'] ++ '/' :: "tb:u-5".toList))) with
  | error _ => rw [e] at h; cases h
  | ok i => exact ⟨i, rfl, by decide⟩

/-- **C54** (outpoint). The allocations at an outpoint are exactly those of valid state, of any kind, whose seal is there, whatever their witness is. -/
theorem C54_outpoint (c : ContractIface) (o : Outpoint) (x : Alloc) :
    x ∈ c.outpointAllocations o ↔ ∃ k a, a ∈ c.state.all k ∧ x = Alloc.of a ∧ a.sl.outpoint = o := by
  unfold ContractIface.outpointAllocations
  rw [(C54_allocations c (.outpoint o)).2]
  rfl

/-- What an allocation shows of a state: the amount without the blinding factor and the tag, the data and the attachment without the salt. -/
inductive StateShown : RState → AllocState → Prop
  | void : StateShown .void .void
  | amount (v b t : Nat) : StateShown (.fungible v b t) (.amount v)
  | data (v s : Nat) : StateShown (.data v s) (.data v)
  | attach (f m s : Nat) : StateShown (.attach f m s) (.attach f m)

/-- **C54** (contents). What is read with a filter are exactly allocations which show the selected ones of the valid state: the same output of the operation, seal
and witness, and the amount, data or attachment. -/
theorem C54_contents (c : ContractIface) (f : AFilter) (x : Alloc) :
    x ∈ c.allocations f ↔ ∃ k a, a ∈ c.state.all k ∧ f.Selects a.sl.outpoint a.witness ∧
      x.opout = a.opout ∧ x.sl = a.sl ∧ x.witness = a.witness ∧ StateShown a.state x.state := by
  rw [(C54_allocations c f).2]
  have hs : ∀ (s : RState) (t : AllocState), StateShown s t ↔ t = .of s := by
    intro s t
    constructor
    · rintro (_ | _ | _ | _) <;> rfl
    · rintro rfl; cases s <;> constructor
  constructor
  · rintro ⟨k, a, h1, rfl, h2⟩
    exact ⟨k, a, h1, h2, rfl, rfl, rfl, (hs _ _).2 rfl⟩
  · rintro ⟨k, a, h1, h2, h3, h4, h5, h6⟩
    refine ⟨k, a, h1, ?_, h2⟩
    obtain ⟨o, sl, st, w⟩ := x
    simp only at h3 h4 h5 h6
    rw [hs] at h6
    subst h3 h4 h5 h6
    rfl

/-- **C23** (outputs). The output at which state is found: the one named by its seal, with the seal's blockchain, closing method and output number; if the seal names no
transaction, the witness transaction, which must be on the same blockchain. -/
theorem C23_output (s : Seal) (w : WitnessId) (o : OutSeal) :
    (s.toOutputWith w = some o ↔ o.chain = s.chain ∧ o.method = s.method ∧ o.vout = s.vout ∧
      (s.txid = some o.txid ∨ (s.txid = none ∧ s.chain = w.chain ∧ o.txid = w.txid))) ∧
    (s.toOutput = some o ↔ o.chain = s.chain ∧ o.method = s.method ∧ o.vout = s.vout ∧ s.txid = some o.txid) ∧
    o.outpoint.chain = o.chain ∧ o.outpoint.txid = o.txid ∧ o.outpoint.vout = o.vout := by
  obtain ⟨sc, sm, st, sv, sb⟩ := s
  obtain ⟨oc, om, ot, ov⟩ := o
  refine ⟨?_, ?_, rfl, rfl, rfl⟩
  · cases st with
    | some t => simp only [Seal.toOutputWith, Option.some.injEq, OutSeal.mk.injEq, reduceCtorEq, false_and, or_false]; grind
    | none => simp only [Seal.toOutputWith, Option.ite_none_right_eq_some, Option.some.injEq, OutSeal.mk.injEq, reduceCtorEq, false_or, true_and]; grind
  · cases st with
    | some t => simp only [Seal.toOutput, Option.map_some, Option.some.injEq, OutSeal.mk.injEq]; grind
    | none => simp [Seal.toOutput]

example : (⟨.bitcoin, .opretFirst, none, 1, 2⟩ : Seal).toOutputWith ⟨.bitcoin, 61⟩ = some ⟨.bitcoin, .opretFirst, 61, 1⟩ ∧
    (⟨.bitcoin, .opretFirst, none, 1, 2⟩ : Seal).toOutputWith ⟨.liquid, 61⟩ = none := by decide

/-- **C18** (forms of assignments). An assignment shows its seal, its state, both or none. A shown seal is the one of which the secret is the concealment. Concealing hides
seal and state, keeps the secret, and of assignments of the same concealed form those which show a seal show the same one, and those which show a state the same one. -/
theorem C18_forms {H : Commit} (hH : H.Binding) (a b : Assign) :
    (∀ s, a.seal? = some s ↔ (∃ st, a = .revealed s st) ∨ ∃ h, a = .confidentialState s h) ∧
    (∀ st, a.state? = some st ↔ (∃ s, a = .revealed s st) ∨ ∃ h, a = .confidentialSeal h st) ∧
    (∀ s, a.seal? = some s → a.secret H = H.sealHash s) ∧
    (a.conceal H).seal? = none ∧ (a.conceal H).state? = none ∧ (a.conceal H).secret H = a.secret H ∧ (a.conceal H).conceal H = a.conceal H ∧
    (a.conceal H = b.conceal H → a.secret H = b.secret H ∧ (∀ s s', a.seal? = some s → b.seal? = some s' → s = s') ∧
      (∀ st st', a.state? = some st → b.state? = some st' → st = st')) := by
  refine ⟨?_, ?_, ?_, ?_, ?_, ?_, ?_, ?_⟩
  · intro s; cases a <;> simp [Assign.seal?]
  · intro st; cases a <;> simp [Assign.state?]
  · intro s; cases a <;> simp [Assign.seal?, Assign.secret] <;> (rintro rfl; rfl)
  · cases a <;> rfl
  · cases a <;> rfl
  · cases a <;> rfl
  · cases a <;> rfl
  · intro h
    refine ⟨?_, ?_, ?_⟩
    · cases a <;> cases b <;> simp_all [Assign.conceal, Assign.secret]
    · intro s s' h1 h2
      have : H.sealHash s = H.sealHash s' := by
        cases a <;> cases b <;> simp_all [Assign.conceal, Assign.seal?]
      exact hH.seal_inj _ _ this
    · intro s s' h1 h2
      have : H.stateHash s = H.stateHash s' := by
        cases a <;> cases b <;> simp_all [Assign.conceal, Assign.state?]
      exact hH.state_inj _ _ this

/-- A seal and a state of which one was shown each. -/
example (s : Seal) (st : RState) : (Assign.confidentialState s (World.H.stateHash st)).conceal World.H = (Assign.revealed s st).conceal World.H ∧ World.H.Binding :=
  ⟨rfl, World.H_binding⟩

/-- **C91** (blockchain). Payments are made on the blockchain which the invoice names, and with the closing method of the address. -/
theorem C91_invoiced_chain (W : Wallet) (inv : Inv.Invoice) :
    (inv.layer = .liquid ↔ inv.beneficiary.chainNetwork = .liquidMainnet ∨ inv.beneficiary.chainNetwork = .liquidTestnet) ∧
    (inv.layer = .bitcoin ↔ inv.beneficiary.chainNetwork = .bitcoinMainnet ∨ inv.beneficiary.chainNetwork = .bitcoinTestnet ∨
      inv.beneficiary.chainNetwork = .bitcoinSignet ∨ inv.beneficiary.chainNetwork = .bitcoinRegtest) ∧
    (∀ h, inv.beneficiary.intoInner = .blindedSeal h → W.benSeal inv = .concealed inv.layer h) ∧
    (∀ p, inv.beneficiary.intoInner = .witnessVout p → ∃ sl, W.benSeal inv = .revealed sl ∧ sl.chain = inv.layer ∧ sl.txid = none ∧
      (sl.method = .opretFirst ↔ p.method = .opretFirst) ∧ (sl.method = .tapretFirst ↔ p.method = .tapretFirst)) := by
  refine ⟨?_, ?_, fun h e => by simp [Wallet.benSeal, e], fun p e => ⟨_, by simp only [Wallet.benSeal, e]; rfl, rfl, rfl, ?_, ?_⟩⟩
  · unfold Inv.Invoice.layer Inv.XChainNet.layer1; cases inv.beneficiary.chainNetwork <;> decide
  · unfold Inv.Invoice.layer Inv.XChainNet.layer1; cases inv.beneficiary.chainNetwork <;> decide
  · show CloseMethod.ofInv p.method = _ ↔ _; cases p.method <;> decide
  · show CloseMethod.ofInv p.method = _ ↔ _; cases p.method <;> decide

/-- **C56** (unions). A union of sets of closing methods, also with one which may be missing, on either side, has exactly the methods of both. -/
theorem C56_union (a b : CloseMethodSet) :
    (∀ m, (CloseMethodSet.ofMethod m).hasTapretFirst = decide (m = .tapretFirst) ∧ (CloseMethodSet.ofMethod m).hasOpretFirst = decide (m = .opretFirst)) ∧
    ((a.or b).hasTapretFirst = (a.hasTapretFirst || b.hasTapretFirst) ∧ (a.or b).hasOpretFirst = (a.hasOpretFirst || b.hasOpretFirst)) ∧
    ((a.orOpt (some b)).hasTapretFirst = (a.hasTapretFirst || b.hasTapretFirst) ∧ (a.orOpt (some b)).hasOpretFirst = (a.hasOpretFirst || b.hasOpretFirst)) ∧
    ((CloseMethodSet.optOr (some a) b).hasTapretFirst = (a.hasTapretFirst || b.hasTapretFirst) ∧
      (CloseMethodSet.optOr (some a) b).hasOpretFirst = (a.hasOpretFirst || b.hasOpretFirst)) ∧
    a.orOpt none = a ∧ CloseMethodSet.optOr none b = b ∧
    -- and a set is determined by its methods, of which it has one at least
    (a.hasTapretFirst = b.hasTapretFirst → a.hasOpretFirst = b.hasOpretFirst → a = b) ∧ (a.hasTapretFirst || a.hasOpretFirst) = true := by
  refine ⟨fun m => by cases m <;> decide, ?_⟩
  cases a <;> cases b <;> decide

/-- **C51** (lookups). The type of a name is the least number bound to it, and the name of a type the least name bound to it; there is none exactly if nothing is bound.
If no name and no number is bound twice, the two are inverse to each other. -/
theorem C51_lookups {s : OSet NamedField} (hs : OSet.Sorted s) (name id : Nat) :
    (typeByName s name = some id ↔ (∃ f ∈ s, f.name = name ∧ f.id = id) ∧ ∀ f ∈ s, f.name = name → id ≤ f.id) ∧
    (nameByType s id = some name ↔ (∃ f ∈ s, f.id = id ∧ f.name = name) ∧ ∀ f ∈ s, f.id = id → name ≤ f.name) ∧
    (typeByName s name = none ↔ ∀ f ∈ s, f.name ≠ name) ∧ (nameByType s id = none ↔ ∀ f ∈ s, f.id ≠ id) ∧
    ((∀ f ∈ s, ∀ g ∈ s, f.name = g.name ↔ f.id = g.id) → (typeByName s name = some id ↔ nameByType s id = some name)) := by
  have hT : typeByName s name = some id ↔ (∃ f ∈ s, f.name = name ∧ f.id = id) ∧ ∀ f ∈ s, f.name = name → id ≤ f.id := by
    induction s with
    | nil => simp [typeByName]
    | cons f s ih =>
      obtain ⟨hf, hs⟩ := List.pairwise_cons.1 hs
      by_cases e : f.name = name
      · have hle : ∀ g ∈ s, f.id ≤ g.id := fun g hg => by
          have := hf g hg
          simp only [Key.lt, Key.enc, lexLt] at this
          grind
        simp only [typeByName, List.find?_cons, e, decide_true, Option.map_some, Option.some.injEq]
        constructor
        · rintro rfl
          refine ⟨⟨f, by simp, e, rfl⟩, fun g hg _ => ?_⟩
          rcases List.mem_cons.1 hg with rfl | hg
          · exact Nat.le_refl _
          · exact hle g hg
        · rintro ⟨⟨g, hg, -, rfl⟩, h⟩
          have h1 := h f (by simp) e
          rcases List.mem_cons.1 hg with rfl | hg
          · rfl
          · exact Nat.le_antisymm (hle g hg) h1
      · have := ih hs
        simp only [typeByName] at this
        simp only [typeByName, List.find?_cons, e, decide_false, this]
        grind
  have hN : nameByType s id = some name ↔ (∃ f ∈ s, f.id = id ∧ f.name = name) ∧ ∀ f ∈ s, f.id = id → name ≤ f.name := by
    clear hT
    induction s with
    | nil => simp [nameByType]
    | cons f s ih =>
      obtain ⟨hf, hs⟩ := List.pairwise_cons.1 hs
      by_cases e : f.id = id
      · have hle : ∀ g ∈ s, g.id = id → f.name ≤ g.name := fun g hg hi => by
          have := hf g hg
          simp only [Key.lt, Key.enc, lexLt] at this
          grind
        simp only [nameByType, List.find?_cons, e, decide_true, Option.map_some, Option.some.injEq]
        constructor
        · rintro rfl
          refine ⟨⟨f, by simp, e, rfl⟩, fun g hg hi => ?_⟩
          rcases List.mem_cons.1 hg with rfl | hg
          · exact Nat.le_refl _
          · exact hle g hg hi
        · rintro ⟨⟨g, hg, hi, rfl⟩, h⟩
          have h1 := h f (by simp) e
          rcases List.mem_cons.1 hg with rfl | hg
          · rfl
          · exact Nat.le_antisymm (hle g hg hi) h1
      · have := ih hs
        simp only [nameByType] at this
        simp only [nameByType, List.find?_cons, e, decide_false, this]
        grind
  refine ⟨hT, hN, by simp [typeByName], by simp [nameByType], fun hd => ?_⟩
  rw [hT, hN]
  grind

/-- A name which is bound to two numbers, and a number with two names. -/
example : OSet.Sorted [⟨3, 7, 0⟩, ⟨4, 7, 0⟩, ⟨4, 8, 0⟩, (⟨5, 6, 0⟩ : NamedField)] ∧ typeByName [⟨3, 7, 0⟩, ⟨4, 7, 0⟩, ⟨4, 8, 0⟩, ⟨5, 6, 0⟩] 7 = some 3 ∧
    nameByType [⟨3, 7, 0⟩, ⟨4, 7, 0⟩, ⟨4, 8, 0⟩, ⟨5, 6, 0⟩] 4 = some 7 ∧ typeByName [⟨3, 7, 0⟩, ⟨4, 7, 0⟩, ⟨4, 8, 0⟩, ⟨5, 6, 0⟩] 8 = some 4 ∧
    nameByType [⟨3, 7, 0⟩, ⟨4, 7, 0⟩, ⟨4, 8, 0⟩, ⟨5, 6, 0⟩] 6 = none := by
  unfold OSet.Sorted; decide +kernel

/-- The bindings of an implementation which passes its checks. -/
example : tokenImpl.check tokenIface tokenSchema (fun _ => true) 0 = [] ∧ OSet.Sorted tokenImpl.assignments ∧
    (∀ f ∈ tokenImpl.assignments, ∀ g ∈ tokenImpl.assignments, f.name = g.name ↔ f.id = g.id) ∧ tokenImpl.assignments ≠ [] := by
  unfold OSet.Sorted; decide +kernel

/-- **C32** (levels). Signers are acceptable unless they are malicious, to be used if they are trusted, and must be used if the trust is ultimate; each level includes the lower ones. -/
theorem C32_levels (t : TrustLevel) :
    (t.shouldAccept = true ↔ t ≠ .malicious) ∧ (t.shouldUse = true ↔ t = .trusted ∨ t = .ultimate) ∧ (t.mustUse = true ↔ t = .ultimate) ∧
    (∀ u : TrustLevel, t.num = u.num → t = u) ∧ TrustLevel.default.shouldAccept = true ∧ TrustLevel.default.shouldUse = false := by
  refine ⟨?_, ?_, ?_, fun u => ?_, rfl, rfl⟩
  · cases t <;> decide
  · cases t <;> decide
  · cases t <;> decide
  · cases t <;> cases u <;> decide

/-- **C11** (constructors). A new builder has the beneficiary, an unspecified transport and nothing else; the other constructors differ in the contract and in the interface RGB20 only. -/
theorem C11_constructors (c : Nat) (b : Inv.XChainNet Inv.Beneficiary) :
    (∀ i : Inv.Invoice, i = Inv.Builder.new b ↔ i.transports = [.unspecified] ∧ i.contract = none ∧ i.iface = none ∧ i.operation = none ∧ i.assignment = none ∧ i.beneficiary = b ∧
      i.ownedState = .void ∧ i.expiry = none ∧ i.unknownQuery = []) ∧
    Inv.Builder.with_ c b = { Inv.Builder.new b with contract := some c } ∧
    Inv.Builder.rgb20 c b = { Inv.Builder.new b with contract := some c, iface := some "RGB20".toList } ∧
    Inv.Builder.rgb20Anything b = { Inv.Builder.new b with iface := some "RGB20".toList } := by
  refine ⟨fun i => ⟨?_, ?_⟩, rfl, rfl, rfl⟩
  · rintro rfl; exact ⟨rfl, rfl, rfl, rfl, rfl, rfl, rfl, rfl, rfl⟩
  · obtain ⟨t, c', f, op, as, be, st, ex, q⟩ := i
    rintro ⟨h1, h2, h3, h4, h5, h6, h7, h8, h9⟩
    simp only at h1 h2 h3 h4 h5 h6 h7 h8 h9
    subst h1 h2 h3 h4 h5 h6 h7 h8 h9
    rfl

/-- **C59** (transfers as contracts). A transfer turned into a contract has the same version and contents, and is marked as a contract; turning it again changes nothing. -/
theorem C59_into_contract (c : ConsignmentFile) :
    c.intoContract.body = c.body ∧ c.intoContract.version = c.version ∧ c.intoContract.transfer = false ∧ c.intoContract.intoContract = c.intoContract ∧
    (c.transfer = false → c.intoContract = c) := by
  refine ⟨rfl, rfl, rfl, rfl, fun h => ?_⟩
  obtain ⟨v, t, b⟩ := c
  simp only at h
  subst h
  rfl

/-- **C18** (listing). The seals listed for assignments of a type are those which are visible, of all assignments, in their order. -/
theorem C18_listed (t : TypedAssigns) :
    (∀ s, s ∈ t.revealedSeals ↔ ∃ a ∈ t.items, (∃ st, a = .revealed s st) ∨ ∃ h, a = .confidentialState s h) ∧
    t.revealedSeals.map some = (t.items.map Assign.seal?).filter (fun x => x.isSome) := by
  have key : ∀ (a : Assign) (s : Seal), a.seal? = some s ↔ (∃ st, a = .revealed s st) ∨ ∃ h, a = .confidentialState s h := by
    intro a s
    cases a <;> simp [Assign.seal?]
  unfold TypedAssigns.revealedSeals
  refine ⟨fun s => ?_, ?_⟩
  · rw [List.mem_filterMap]
    simp only [key]
  · induction t.items with
    | nil => rfl
    | cons a l ih =>
      rw [List.filterMap_cons, List.map_cons, List.filter_cons]
      cases h : a.seal? with
      | none => simpa using ih
      | some x => simpa using ih

example (s s' : Seal) : (⟨.fungible, [.revealed s .void, .confidential 3 4, .confidentialState s' 7]⟩ : TypedAssigns).revealedSeals = [s, s'] := rfl

end Rgb.Props
