import Verif.Spec.File
import Verif.Spec.StockWorld

/-!
# C59: container files
-/

namespace Rgb.File

theorem readExact_append {n : Nat} {a b : List Nat} (h : a.length = n) : readExact n (a ++ b) = some (a, b) := by
  subst h; simp [readExact]

theorem readExact_some {n : Nat} {d a b : List Nat} (h : readExact n d = some (a, b)) : d = a ++ b ∧ a.length = n := by
  unfold readExact at h
  split at h
  · rename_i hn; cases h; exact ⟨(List.take_append_drop n d).symm, by simp; omega⟩
  · cases h

theorem readExact_none {n : Nat} {d : List Nat} : readExact n d = none ↔ d.length < n := by
  unfold readExact; split <;> simp <;> omega

theorem strictRead_enc {α : Type} {C : StreamCodec α} (hC : C.Lawful) (a : α) (extra : List Nat) (h : (C.enc a).length ≤ u32Max) :
    strictRead C (C.enc a ++ extra) = .ok a := by
  have : (C.enc a ++ extra).length - extra.length ≤ u32Max := by simp only [List.length_append]; omega
  simp only [strictRead, hC.dec_enc, if_pos this]

theorem load_split {α : Type} (C : StreamCodec α) (magic p m rest : List Nat) (hp : p.length = 4) (hm : m.length = 3) :
    load C magic (p ++ m ++ rest) = if p ≠ rgbPrefix ∨ m ≠ magic then .error .invalidMagic else strictRead C rest := by
  rw [load, List.append_assoc, readExact_append hp]
  simp only
  rw [readExact_append hm]

theorem split7 {d : List Nat} (h : 7 ≤ d.length) : ∃ p m rest : List Nat, d = p ++ m ++ rest ∧ p.length = 4 ∧ m.length = 3 :=
  ⟨d.take 4, (d.drop 4).take 3, d.drop 7, by
    rw [List.append_assoc, show d.drop 7 = (d.drop 4).drop 3 by rw [List.drop_drop], List.take_append_drop, List.take_append_drop],
    by simp; omega, by simp; omega⟩

theorem load_short {α : Type} (C : StreamCodec α) (magic d : List Nat) (h : d.length < 7) : load C magic d = .error .decode := by
  unfold load
  cases h1 : readExact 4 d with
  | none => rfl
  | some x =>
    obtain ⟨a, b⟩ := x
    obtain ⟨rfl, h4⟩ := readExact_some h1
    simp only
    cases h2 : readExact 3 b with
    | none => rfl
    | some y =>
      obtain ⟨c, e⟩ := y
      obtain ⟨rfl, h3⟩ := readExact_some h2
      simp only [List.length_append] at h; omega

theorem consignmentHeaders_values (L : Labels) (c : ConsignmentFile) (h : ArmorHeader) (hh : h ∈ consignmentHeaders L c) : h.values ≠ [] := by
  simp only [consignmentHeaders, List.mem_append, List.mem_cons, List.not_mem_nil, or_false] at hh
  rcases hh with ((rfl | rfl | rfl | rfl) | hh) | hh
  · simp
  · simp
  · simp
  · simp
  · split at hh
    · cases hh
    · rename_i he
      simp only [List.mem_cons, List.not_mem_nil, or_false] at hh; subst hh
      simpa [List.isEmpty_iff] using he
  · split at hh
    · cases hh
    · rename_i he
      simp only [List.mem_cons, List.not_mem_nil, or_false] at hh; subst hh
      simpa [List.isEmpty_iff] using he

theorem kitHeaders_values (L : Labels) (k : Kit) (h : ArmorHeader) (hh : h ∈ kitHeaders L k) : h.values ≠ [] := by
  simp only [kitHeaders, List.mem_append, List.mem_cons, List.not_mem_nil, or_false, List.mem_map] at hh
  rcases hh with ((((rfl | ⟨_, _, rfl⟩) | ⟨_, _, rfl⟩) | ⟨_, _, rfl⟩) | rfl) | ⟨_, _, rfl⟩ <;> simp

theorem checkTypeHeader_none {c : ConsignmentFile} {hs : List ArmorHeader} :
    checkTypeHeader c hs = none ↔ c.transfer = true ∧ ∃ h : ArmorHeader, hs.find? (fun h => decide (h.title = "Type")) = some h ∧ h.values = [] := by
  unfold checkTypeHeader
  cases hf : hs.find? (fun h => decide (h.title = "Type")) with
  | none => simp
  | some h =>
    simp only [Option.some.injEq, exists_eq_left']
    split
    · rename_i hc
      rw [Option.map_eq_none_iff, List.getElem?_eq_none_iff, Nat.le_zero, List.length_eq_zero_iff]
      exact ⟨fun he => ⟨hc.1, he⟩, fun he => he.2⟩
    · rename_i hc
      constructor
      · intro he; cases he
      · rintro ⟨h1, h2⟩; exact absurd ⟨h1, by simp [h2]⟩ hc

theorem consignmentPlate_calm (L : Labels) (id : ConsignmentFile → Nat) : (consignmentPlate L id).Calm where
  reads a hs h := by
    cases hc : checkTypeHeader a hs with
    | none =>
      obtain ⟨_, x, hx, he⟩ := checkTypeHeader_none.1 hc
      exact absurd he (h x (List.mem_of_find?_eq_some hx))
    | some u => exact hc
  prints a h hh := consignmentHeaders_values L a h hh

theorem kitPlate_calm (L : Labels) (id : Kit → Nat) : (kitPlate L id).Calm where
  reads _ _ _ := rfl
  prints a h hh := kitHeaders_values L a h hh

theorem fromArmored_ok {α : Type} {A : Armor} {C : StreamCodec α} {P : Plate α} {s : String} {a : α} (h : fromArmored A C P s = .ok a) :
    ∃ (hs : List ArmorHeader) (data : List Nat), A.parse s = some (P.title, P.id a, hs, data) ∧ C.dec data = some (a, []) := by
  unfold fromArmored at h
  split at h
  · cases h
  · rename_i title id hs data hp
    split at h
    · cases h
    · rename_i ht
      split at h
      · cases h
      · rename_i b rest hd
        split at h
        · cases h
        · rename_i hr
          split at h
          · cases h
          · split at h
            · cases h
            · rename_i hi
              cases h
              refine ⟨hs, data, ?_, ?_⟩
              · rw [hp, Decidable.byContradiction ht, Decidable.byContradiction hi]
              · rw [hd, Decidable.byContradiction hr]

end Rgb.File

namespace Rgb.Props
open Rgb Rgb.File

/-- A container is saved exactly if its encoding has at most 2³² - 1 bytes, and the saved file (also followed by anything) loads as it. -/
theorem C59_roundtrip {α : Type} {C : StreamCodec α} (hC : C.Lawful) (magic : List Nat) (hm : magic ∈ [kitMagic, contractMagic, transferMagic]) (a : α) :
    ((∃ bytes : List Nat, save C magic a = some bytes) ↔ (C.enc a).length ≤ 4294967295) ∧
    (∀ bytes extra : List Nat, save C magic a = some bytes → load C magic (bytes ++ extra) = .ok a) := by
  have hl : magic.length = 3 := by
    simp only [List.mem_cons, List.not_mem_nil, or_false] at hm; rcases hm with rfl | rfl | rfl <;> rfl
  have hu : u32Max = 4294967295 := rfl
  constructor
  · rw [← hu]; unfold save; split <;> simp_all
  · intro bytes extra h
    unfold save at h
    split at h
    · rename_i hle
      cases h
      rw [List.append_assoc, load_split C magic rgbPrefix magic _ rfl hl, if_neg (by simp), strictRead_enc hC a extra hle]
    · cases h

/-- What is loaded as a container has the prefix and the type of the container. Bytes with another prefix or type are refused as such. -/
theorem C59_magic {α : Type} (C : StreamCodec α) (magic data : List Nat) :
    (∀ a : α, load C magic data = .ok a → ∃ rest : List Nat, data = rgbPrefix ++ magic ++ rest) ∧
    (∀ p m rest : List Nat, data = p ++ m ++ rest → p.length = 4 → m.length = 3 → (load C magic data = .error .invalidMagic ↔ p ≠ rgbPrefix ∨ m ≠ magic)) := by
  constructor
  · intro a h
    by_cases h7 : 7 ≤ data.length
    · obtain ⟨p, m, rest, rfl, hp, hm⟩ := split7 h7
      rw [load_split C magic p m rest hp hm] at h
      split at h
      · cases h
      · rename_i hn
        exact ⟨rest, by rw [Decidable.byContradiction (fun h => hn (.inl h)), Decidable.byContradiction (fun h => hn (.inr h))]⟩
    · rw [load_short C magic data (by omega)] at h; cases h
  · rintro p m rest rfl hp hm
    rw [load_split C magic p m rest hp hm]
    split
    · rename_i h; exact ⟨fun _ => h, fun _ => rfl⟩
    · rename_i h
      refine ⟨fun he => ?_, fun h' => absurd h' h⟩
      unfold strictRead at he
      split at he
      · cases he
      · split at he <;> cases he

/-- A container saved as one type is refused by loading as another one. -/
theorem C59_type_safe {α β : Type} (C : StreamCodec α) (D : StreamCodec β) (m m' : List Nat) (hm : m ∈ [kitMagic, contractMagic, transferMagic])
    (hne : m ≠ m') (a : α) (bytes : List Nat) (h : save C m a = some bytes) :
    load D m' bytes = .error .invalidMagic := by
  have hl : m.length = 3 := by
    simp only [List.mem_cons, List.not_mem_nil, or_false] at hm; rcases hm with rfl | rfl | rfl <;> rfl
  unfold save at h
  split at h
  · cases h; exact ((C59_magic D m' _).2 rgbPrefix m _ rfl rfl hl).2 (.inr hne)
  · cases h

/-- A file which was written only in part never loads. -/
theorem C59_truncated {α : Type} {C : StreamCodec α} (hC : C.Lawful) (magic : List Nat) (hm : magic ∈ [kitMagic, contractMagic, transferMagic]) (a : α)
    (bytes : List Nat) (h : save C magic a = some bytes) (n : Nat) (hn : n < bytes.length) : load C magic (bytes.take n) = .error .decode := by
  have hl : magic.length = 3 := by
    simp only [List.mem_cons, List.not_mem_nil, or_false] at hm; rcases hm with rfl | rfl | rfl <;> rfl
  unfold save at h
  split at h
  · cases h
    have hr : rgbPrefix.length = 4 := rfl
    by_cases h7 : n < 7
    · exact load_short _ _ _ (by simp only [List.length_take]; omega)
    · have e : (rgbPrefix ++ magic ++ C.enc a).take n = rgbPrefix ++ magic ++ (C.enc a).take (n - 7) := by
        rw [List.take_append, List.take_of_length_le (by simp only [List.length_append]; omega)]
        simp [hr, hl]
      rw [e, load_split C magic rgbPrefix magic _ hr hl, if_neg (by simp)]
      have hlen : n - 7 < (C.enc a).length := by simp only [List.length_append, hr, hl] at hn; omega
      unfold strictRead
      cases hd : C.dec ((C.enc a).take (n - 7)) with
      | none => rfl
      | some x =>
        obtain ⟨b, rest⟩ := x
        have h1 := hC.stream b _ rest ((C.enc a).drop (n - 7)) hd
        rw [List.take_append_drop] at h1
        have h2 := hC.dec_enc a []
        rw [List.append_nil, h1] at h2
        simp only [Option.some.injEq, Prod.mk.injEq, List.append_eq_nil_iff, List.drop_eq_nil_iff] at h2
        omega
  · cases h

/-- Whenever saving to a file is interrupted, the file then loads as what it was, or as the container being saved, or doesn't load. -/
theorem C59_crash {α : Type} {C : StreamCodec α} (hC : C.Lawful) (magic : List Nat) (hm : magic ∈ [kitMagic, contractMagic, transferMagic]) (a : α)
    (old bytes : List Nat) (h : save C magic a = some bytes) (n : Nat) :
    load C magic (crash old bytes n) = load C magic old ∨ load C magic (crash old bytes n) = .ok a ∨
      load C magic (crash old bytes n) = .error .decode := by
  cases n with
  | zero => exact .inl rfl
  | succ n =>
    refine .inr ?_
    by_cases hn : n < bytes.length
    · exact .inr (C59_truncated hC magic hm a bytes h n hn)
    · rw [crash, List.take_of_length_le (by omega)]
      have := (C59_roundtrip hC magic hm a).2 bytes [] h
      rw [List.append_nil] at this
      exact .inl this

/-- Universal files are exactly files of the three types: loading agrees with loading by the type, and other types are refused. -/
theorem C59_universal (K : StreamCodec Kit) (C : StreamCodec ConsignmentFile) (data : List Nat) :
    (∀ k : Kit, Universal.load K C data = .ok (.kit k) ↔ load K kitMagic data = .ok k) ∧
    (∀ c : ConsignmentFile, Universal.load K C data = .ok (.contract c) ↔ load C contractMagic data = .ok c) ∧
    (∀ c : ConsignmentFile, Universal.load K C data = .ok (.transfer c) ↔ load C transferMagic data = .ok c) ∧
    (Universal.load K C data = .error .invalidMagic ↔
      load K kitMagic data = .error .invalidMagic ∧ load C contractMagic data = .error .invalidMagic ∧ load C transferMagic data = .error .invalidMagic) := by
  by_cases h7 : 7 ≤ data.length
  · obtain ⟨p, m, rest, rfl, hp, hm⟩ := split7 h7
    have hu : Universal.load K C (p ++ m ++ rest) =
        if p ≠ rgbPrefix then .error .invalidMagic
        else if m = kitMagic then (strictRead K rest).map .kit
        else if m = contractMagic then (strictRead C rest).map .contract
        else if m = transferMagic then (strictRead C rest).map .transfer
        else .error .invalidMagic := by
      rw [Universal.load, List.append_assoc, readExact_append hp]
      simp only
      rw [readExact_append hm]
    have hs : ∀ {α : Type} (D : StreamCodec α), strictRead D rest ≠ .error .invalidMagic := by
      intro α D he
      unfold strictRead at he
      split at he
      · cases he
      · split at he <;> cases he
    have hK : ∀ f : Kit → Universal, (strictRead K rest).map f = .error .invalidMagic ↔ False := by
      intro f
      cases hr : strictRead K rest with
      | ok a => simp [Except.map]
      | error e => simp only [Except.map, Except.error.injEq, iff_false]; rintro rfl; exact hs K hr
    have hC : ∀ f : ConsignmentFile → Universal, (strictRead C rest).map f = .error .invalidMagic ↔ False := by
      intro f
      cases hr : strictRead C rest with
      | ok a => simp [Except.map]
      | error e => simp only [Except.map, Except.error.injEq, iff_false]; rintro rfl; exact hs C hr
    have e1 : kitMagic ≠ contractMagic := by decide
    have e2 : kitMagic ≠ transferMagic := by decide
    have e3 : contractMagic ≠ transferMagic := by decide
    rw [hu, load_split K _ p m rest hp hm, load_split C _ p m rest hp hm, load_split C _ p m rest hp hm]
    by_cases hpr : p = rgbPrefix
    · by_cases m1 : m = kitMagic
      · subst m1
        have := hs K
        simp only [hpr, ne_eq, not_true_eq_false, if_false, if_true, false_or, e1, e2, not_false_eq_true, hK]
        refine ⟨fun k => ?_, fun c => ?_, fun c => ?_, ?_⟩
        · cases strictRead K rest <;> simp [Except.map]
        · cases strictRead K rest <;> simp [Except.map]
        · cases strictRead K rest <;> simp [Except.map]
        · simp [this]
      · by_cases m2 : m = contractMagic
        · subst m2
          have := hs C
          simp only [hpr, ne_eq, not_true_eq_false, if_false, if_true, false_or, e1.symm, e3, not_false_eq_true, hC]
          refine ⟨fun k => ?_, fun c => ?_, fun c => ?_, ?_⟩
          · cases strictRead C rest <;> simp [Except.map]
          · cases strictRead C rest <;> simp [Except.map]
          · cases strictRead C rest <;> simp [Except.map]
          · simp [this]
        · by_cases m3 : m = transferMagic
          · subst m3
            have := hs C
            simp only [hpr, ne_eq, not_true_eq_false, if_false, if_true, false_or, e2.symm, e3.symm, not_false_eq_true, hC]
            refine ⟨fun k => ?_, fun c => ?_, fun c => ?_, ?_⟩
            · cases strictRead C rest <;> simp [Except.map]
            · cases strictRead C rest <;> simp [Except.map]
            · cases strictRead C rest <;> simp [Except.map]
            · simp [this]
          · simp [hpr, m1, m2, m3]
    · simp [hpr]
  · have hu : Universal.load K C data = .error .decode := by
      unfold Universal.load
      cases h1 : readExact 4 data with
      | none => rfl
      | some x =>
        obtain ⟨a, b⟩ := x
        obtain ⟨rfl, h4⟩ := readExact_some h1
        simp only
        cases h2 : readExact 3 b with
        | none => rfl
        | some y =>
          obtain ⟨c, e⟩ := y
          obtain ⟨rfl, h3⟩ := readExact_some h2
          simp only [List.length_append] at h7; omega
    rw [hu, load_short _ _ _ (by omega), load_short _ _ _ (by omega), load_short _ _ _ (by omega)]
    simp

/-- Universal files round-trip, with the type. -/
theorem C59_universal_roundtrip {K : StreamCodec Kit} {C : StreamCodec ConsignmentFile} (hK : K.Lawful) (hC : C.Lawful) (u : Universal)
    (bytes extra : List Nat) (h : u.save K C = some bytes) : Universal.load K C (bytes ++ extra) = .ok u := by
  cases u with
  | kit k => exact ((C59_universal K C _).1 k).2 ((C59_roundtrip hK kitMagic (by simp) k).2 bytes extra h)
  | contract c => exact ((C59_universal K C _).2.1 c).2 ((C59_roundtrip hC contractMagic (by simp) c).2 bytes extra h)
  | transfer c => exact ((C59_universal K C _).2.2.1 c).2 ((C59_roundtrip hC transferMagic (by simp) c).2 bytes extra h)

/-- Armored text round-trips. What is read from it has the title and the id written there. Data with more bytes than the container takes are refused. -/
theorem C59_armored {α : Type} {A : Armor} (hA : A.Lawful) {C : StreamCodec α} (hC : C.Lawful) (P : Plate α) :
    (P.Calm → ∀ a : α, fromArmored A C P (toArmored A C P a) = .ok a) ∧
    (∀ (title : String) (id : Nat) (headers : List ArmorHeader) (data : List Nat) (a : α),
      fromArmored A C P (A.print title id headers data) = .ok a → title = P.title ∧ id = P.id a) ∧
    (∀ (a : α) (headers : List ArmorHeader) (extra : List Nat), extra ≠ [] →
      fromArmored A C P (A.print P.title (P.id a) headers (C.enc a ++ extra)) = .error .armor) := by
  refine ⟨?_, ?_, fun a headers extra he => ?_⟩
  · intro hP a
    have := hC.dec_enc a []
    rw [List.append_nil] at this
    obtain ⟨hs, hp, hv⟩ := hA.parse_print P.title (P.id a) (P.headers a) (C.enc a)
    simp [fromArmored, toArmored, hp, this, hP.reads a hs (hv (hP.prints a))]
  · intro title id headers data a h
    obtain ⟨hs, data', h1, _⟩ := fromArmored_ok h
    obtain ⟨hs', hp, _⟩ := hA.parse_print title id headers data
    rw [hp] at h1
    cases h1
    exact ⟨rfl, rfl⟩
  · obtain ⟨hs, hp, _⟩ := hA.parse_print P.title (P.id a) headers (C.enc a ++ extra)
    simp [fromArmored, hp, hC.dec_enc, he]

/-- The text of any consignment and of any kit is read as that consignment or kit. -/
theorem C59_armored_roundtrip {A : Armor} (hA : A.Lawful) {K : StreamCodec Kit} {C : StreamCodec ConsignmentFile} (hK : K.Lawful) (hC : C.Lawful)
    (L : Labels) (kid : Kit → Nat) (cid : ConsignmentFile → Nat) :
    (∀ c : ConsignmentFile, fromArmored A C (consignmentPlate L cid) (toArmored A C (consignmentPlate L cid) c) = .ok c) ∧
    (∀ k : Kit, fromArmored A K (kitPlate L kid) (toArmored A K (kitPlate L kid) k) = .ok k) :=
  ⟨(C59_armored hA hC _).1 (consignmentPlate_calm L cid), (C59_armored hA hK _).1 (kitPlate_calm L kid)⟩

/-- Armored kits aren't read as consignments, armored consignments aren't read as kits. -/
theorem C59_armored_type {A : Armor} (hA : A.Lawful) (K : StreamCodec Kit) (C : StreamCodec ConsignmentFile) (L : Labels) (kid : Kit → Nat)
    (cid : ConsignmentFile → Nat) :
    (∀ k : Kit, fromArmored A C (consignmentPlate L cid) (toArmored A K (kitPlate L kid) k) = .error .armor) ∧
    (∀ c : ConsignmentFile, fromArmored A K (kitPlate L kid) (toArmored A C (consignmentPlate L cid) c) = .error .armor) := by
  constructor <;> intro x
  · obtain ⟨hs, hp, _⟩ := hA.parse_print "RGB KIT" (kid x) (kitHeaders L x) (K.enc x)
    simp [fromArmored, toArmored, kitPlate, consignmentPlate, hp]
  · obtain ⟨hs, hp, _⟩ := hA.parse_print "RGB CONSIGNMENT" (cid x) (consignmentHeaders L x) (C.enc x)
    simp [fromArmored, toArmored, kitPlate, consignmentPlate, hp]

/-- Reading text panics exactly for a text with the title of a consignment and data of one flagged as a transfer, whose first header named "Type" has
no values. -/
theorem C59_panics (A : Armor) (C : StreamCodec ConsignmentFile) (L : Labels) (cid : ConsignmentFile → Nat) (s : String) :
    fromArmored A C (consignmentPlate L cid) s = .error .panic ↔
      ∃ (id : Nat) (headers : List ArmorHeader) (data : List Nat) (c : ConsignmentFile) (h : ArmorHeader),
        A.parse s = some ("RGB CONSIGNMENT", id, headers, data) ∧ C.dec data = some (c, []) ∧ c.transfer = true ∧
        headers.find? (fun h => decide (h.title = "Type")) = some h ∧ h.values = [] := by
  constructor
  · intro h
    unfold fromArmored at h
    split at h
    · cases h
    · rename_i title id hs data hp
      split at h
      · cases h
      · rename_i ht
        split at h
        · cases h
        · rename_i b rest hd
          split at h
          · cases h
          · rename_i hr
            split at h
            · rename_i hc
              obtain ⟨h1, x, hx, he⟩ := checkTypeHeader_none.1 hc
              refine ⟨id, hs, data, b, x, ?_, ?_, h1, hx, he⟩
              · rw [hp, Decidable.byContradiction ht]; rfl
              · rw [hd, Decidable.byContradiction hr]
            · split at h <;> cases h
  · rintro ⟨id, hs, data, c, x, hp, hd, ht, hx, he⟩
    have hc : (consignmentPlate L cid).checkHeaders c hs = none := checkTypeHeader_none.2 ⟨ht, x, hx, he⟩
    have e : "RGB CONSIGNMENT" = (consignmentPlate L cid).title := rfl
    simp only [fromArmored, hp, hd, hc, e, ne_eq, not_true_eq_false, if_false]

/-- What the headers of a consignment's text say: the version, the kind by its flag, the contract, the schema, and, when there are some, names of all
interfaces and all terminals. There are no other headers. -/
theorem C59_headers (L : Labels) (id : ConsignmentFile → Nat) (c : ConsignmentFile) :
    headersNamed ((consignmentPlate L id).headers c) "Version" = [[L.version c.version]] ∧
    headersNamed ((consignmentPlate L id).headers c) "Type" = [[if c.transfer then "transfer" else "contract"]] ∧
    headersNamed ((consignmentPlate L id).headers c) "Contract" = [[L.contract c.body.data.genesis]] ∧
    headersNamed ((consignmentPlate L id).headers c) "Schema" = [[L.schema c.body.schema]] ∧
    headersNamed ((consignmentPlate L id).headers c) "Interface" =
      (if c.body.ifaces = [] then [] else [(c.body.ifaces.map Prod.fst).map L.ifaceName]) ∧
    headersNamed ((consignmentPlate L id).headers c) "Terminal" =
      (if c.body.terminals = [] then [] else [(c.body.terminals.map Prod.fst).map L.bundle]) ∧
    (∀ h ∈ (consignmentPlate L id).headers c, h.title ∈ ["Version", "Type", "Contract", "Schema", "Interface", "Terminal"] ∧ h.params = []) := by
  have e : (consignmentPlate L id).headers c = consignmentHeaders L c := rfl
  rw [e]
  unfold consignmentHeaders
  cases c.body.ifaces <;> cases c.body.terminals <;> simp [headersNamed, List.filter]

/-- What the headers of a kit's text say: the version, the types, and for each schema, interface, implementation and script a header of its own, in the
order of the kit, with the supplement if the kit has one for it. -/
theorem C59_kit_headers (L : Labels) (id : Kit → Nat) (k : Kit) :
    headersNamed ((kitPlate L id).headers k) "Version" = [[L.kitVersion k]] ∧
    headersNamed ((kitPlate L id).headers k) "Type-System" = [[L.types k.types]] ∧
    headersNamed ((kitPlate L id).headers k) "Schema" = k.schemata.map (fun d => [L.schemaName d]) ∧
    headersNamed ((kitPlate L id).headers k) "Interface" = k.ifaces.map (fun d => [L.ifaceName d]) ∧
    headersNamed ((kitPlate L id).headers k) "Implementation" = k.iimpls.map (fun d => [L.implShort d]) ∧
    headersNamed ((kitPlate L id).headers k) "Alu-Lib" = k.scripts.map (fun l => [L.lib l]) ∧
    (∀ d ∈ k.schemata, ∃ h ∈ (kitPlate L id).headers k, h.title = "Schema" ∧ h.values = [L.schemaName d] ∧
      ("id", L.schemaShort d) ∈ h.params ∧ ("dev", L.schemaDev d) ∈ h.params ∧
      ((∃ x : String, ("suppl", x) ∈ h.params) ↔ ∃ s ∈ k.supplements, s.ref = L.schemaRef d)) ∧
    (∀ d ∈ k.ifaces, ∃ h ∈ (kitPlate L id).headers k, h.title = "Interface" ∧ h.values = [L.ifaceName d] ∧
      ("id", L.ifaceShort d) ∈ h.params ∧ ("dev", L.ifaceDev d) ∈ h.params ∧
      ((∃ x : String, ("suppl", x) ∈ h.params) ↔ ∃ s ∈ k.supplements, s.ref = L.ifaceRef d)) ∧
    (∀ d ∈ k.iimpls, ∃ h ∈ (kitPlate L id).headers k, h.title = "Implementation" ∧ h.values = [L.implShort d] ∧
      ("interface", L.ifaceIdShort d.ifaceId) ∈ h.params ∧ ("schema", L.schemaIdShort d.schemaId) ∈ h.params ∧ ("dev", L.implDev d) ∈ h.params ∧
      ((∃ x : String, ("suppl", x) ∈ h.params) ↔ ∃ s ∈ k.supplements, s.ref = L.implRef d)) := by
  have e : (kitPlate L id).headers k = kitHeaders L k := rfl
  rw [e]
  have hf : ∀ {α : Type} (t title : String) (v : α → List String) (p : α → List (String × String)) (l : List α),
      (l.map (fun d => (⟨t, v d, p d⟩ : ArmorHeader))).filter (fun h => decide (h.title = title)) =
        if t = title then l.map (fun d => (⟨t, v d, p d⟩ : ArmorHeader)) else [] := by
    intro α t title v p l
    split
    · rename_i h; exact List.filter_eq_self.2 (fun h' hh => by obtain ⟨a, _, rfl⟩ := List.mem_map.1 hh; simp [h])
    · rename_i h; exact List.filter_eq_nil_iff.2 (fun h' hh => by obtain ⟨a, _, rfl⟩ := List.mem_map.1 hh; simp [h])
  have hs : ∀ ref : Nat, (∃ x : String, ("suppl", x) ∈ supplParam L k ref) ↔ ∃ s ∈ k.supplements, s.ref = ref := by
    intro ref
    unfold supplParam
    cases hq : k.supplements.find? (fun s => decide (s.ref = ref)) with
    | none =>
      rw [List.find?_eq_none] at hq
      simp only [List.not_mem_nil, exists_false, false_iff, not_exists, not_and]
      intro s hm he; exact hq s hm (by simp [he])
    | some s =>
      refine ⟨fun _ => ⟨s, List.mem_of_find?_eq_some hq, by have := List.find?_some hq; simpa using this⟩, fun _ => ⟨_, by simp; rfl⟩⟩
  refine ⟨?_, ?_, ?_, ?_, ?_, ?_, fun d hd => ?_, fun d hd => ?_, fun d hd => ?_⟩
  · simp only [headersNamed, kitHeaders, List.filter_append, hf]
    simp [List.filter]
  · simp only [headersNamed, kitHeaders, List.filter_append, hf]
    simp [List.filter]
  · simp only [headersNamed, kitHeaders, List.filter_append, hf]
    simp [List.filter]
  · simp only [headersNamed, kitHeaders, List.filter_append, hf]
    simp [List.filter]
  · simp only [headersNamed, kitHeaders, List.filter_append, hf]
    simp [List.filter]
  · simp only [headersNamed, kitHeaders, List.filter_append, hf]
    simp [List.filter]
  · refine ⟨{ title := "Schema", values := [L.schemaName d], params := [("id", L.schemaShort d), ("dev", L.schemaDev d)] ++ supplParam L k (L.schemaRef d) },
      ?_, rfl, rfl, by simp, by simp, ?_⟩
    · simp only [kitHeaders, List.mem_append, List.mem_map]; exact .inl (.inl (.inl (.inl (.inr ⟨d, hd, rfl⟩))))
    · rw [← hs]; simp
  · refine ⟨{ title := "Interface", values := [L.ifaceName d], params := [("id", L.ifaceShort d), ("dev", L.ifaceDev d)] ++ supplParam L k (L.ifaceRef d) },
      ?_, rfl, rfl, by simp, by simp, ?_⟩
    · simp only [kitHeaders, List.mem_append, List.mem_map]; exact .inl (.inl (.inl (.inr ⟨d, hd, rfl⟩)))
    · rw [← hs]; simp
  · refine ⟨{ title := "Implementation", values := [L.implShort d], params := [("interface", L.ifaceIdShort d.ifaceId), ("schema", L.schemaIdShort d.schemaId), ("dev", L.implDev d)] ++ supplParam L k (L.implRef d) },
      ?_, rfl, rfl, by simp, by simp, by simp, ?_⟩
    · simp only [kitHeaders, List.mem_append, List.mem_map]; exact .inl (.inl (.inr ⟨d, hd, rfl⟩))
    · rw [← hs]; simp

/-- Parsing a string as a contract or as a transfer accepts only consignments flagged so, and returns what was printed exactly for those.

The full property has no condition on the flag: it isn't set from the type.
Missing: flags which don't agree with the type, see `C59_flag_fails`. -/
theorem C59_string_partial {A : Armor} (hA : A.Lawful) {C : StreamCodec ConsignmentFile} (hC : C.Lawful) (L : Labels) (cid : ConsignmentFile → Nat) (kind : Bool) :
    (∀ c : ConsignmentFile, fromStr A C L cid kind (toArmored A C (consignmentPlate L cid) c) = .ok c ↔ c.transfer = kind) ∧
    (∀ c : ConsignmentFile, fromStr A C L cid kind (toArmored A C (consignmentPlate L cid) c) = .error .type ↔ c.transfer ≠ kind) ∧
    (∀ (s : String) (c : ConsignmentFile), fromStr A C L cid kind s = .ok c → c.transfer = kind) := by
  refine ⟨fun c => ?_, fun c => ?_, fun s c h => ?_⟩
  · rw [fromStr, (C59_armored hA hC _).1 (consignmentPlate_calm L cid)]; by_cases h : c.transfer = kind <;> simp [h]
  · rw [fromStr, (C59_armored hA hC _).1 (consignmentPlate_calm L cid)]; by_cases h : c.transfer = kind <;> simp [h]
  · unfold fromStr at h
    split at h
    · cases h
    · cases h
    · split at h
      · cases h
      · rename_i hh; cases h; exact Decidable.byContradiction hh

/-! ## Counterexamples and examples -/

def fileCon : ConsignmentFile := ⟨2, false, World.con⟩
def fileTransfer : ConsignmentFile := ⟨2, true, World.con⟩
def fileKit : Kit := { ifaces := [⟨7, [], 0⟩], schemata := [⟨0⟩], scripts := [5] }

/-- Labels which tell one document from another. -/
def exLabels : Labels where
  version n := toString n
  contract g := toString g.nonce
  schema d := toString d.body
  ifaceName d := toString d.name
  bundle n := toString n
  kitVersion _ := "1"
  schemaName d := toString d.body
  schemaShort d := toString d.body
  schemaDev _ := "anonymous"
  ifaceShort d := toString d.name
  ifaceDev _ := "anonymous"
  implShort d := toString d.body
  implDev _ := "anonymous"
  ifaceIdShort n := toString n
  schemaIdShort n := toString n
  supplShort d := toString d.body
  types _ := "types"
  lib n := toString n
  schemaRef d := d.body
  ifaceRef d := 100 + d.name
  implRef d := 200 + d.body

/-- Headers aren't compared with what is read: a text may say that it is of a contract, a transfer is read from it. -/
theorem C59_header_fails : ¬ ∀ (A : Armor) (C : StreamCodec ConsignmentFile) (L : Labels) (cid : ConsignmentFile → Nat) (headers : List ArmorHeader)
    (id : Nat) (data : List Nat) (c : ConsignmentFile), A.KeepsHeaders → C.Lawful →
    fromArmored A C (consignmentPlate L cid) (A.print "RGB CONSIGNMENT" id headers data) = .ok c →
    ∀ h ∈ headers, h.title = "Type" → h.values = [if c.transfer then "transfer" else "contract"] := by
  intro h
  have hC := tableCodec_lawful [fileCon, fileTransfer]
  have := h toyArmor (tableCodec [fileCon, fileTransfer]) exLabels (fun _ => 1) [{ title := "Type", values := ["contract"] }] 1
    ((tableCodec [fileCon, fileTransfer]).enc fileTransfer) fileTransfer toyArmor_keeps hC
    (by
      have hd := hC.dec_enc fileTransfer []
      rw [List.append_nil] at hd
      simp only [fromArmored, toyArmor_keeps _ _ _ _, hd]
      decide)
    _ (List.mem_singleton.2 rfl) rfl
  exact absurd this (by decide)

noncomputable def conCodec : StreamCodec ConsignmentFile := tableCodec [fileCon, fileTransfer]
noncomputable def kitCodec : StreamCodec Kit := tableCodec [fileKit]

/-- A file of a contract may contain a consignment which says that it is a transfer: loading checks the type of the file only. -/
theorem C59_flag_fails : ¬ ∀ (C : StreamCodec ConsignmentFile) (data : List Nat) (c : ConsignmentFile), C.Lawful →
    load C contractMagic data = .ok c → c.transfer = false := by
  intro h
  have h1 := (C59_roundtrip (tableCodec_lawful [fileCon, fileTransfer]) contractMagic (by simp) fileTransfer).2
    (rgbPrefix ++ contractMagic ++ [2]) [] (by decide +kernel)
  exact absurd (h _ _ _ (tableCodec_lawful _) h1) (by decide)

/-- Armored text of a transfer is loaded as a contract by `load_armored`: both have the same title, and the header with the type isn't checked. -/
theorem C59_armored_kind_fails : ¬ ∀ (A : Armor) (C : StreamCodec ConsignmentFile) (L : Labels) (cid : ConsignmentFile → Nat) (s : String) (c : ConsignmentFile),
    A.Lawful → C.Lawful → fromArmored A C (consignmentPlate L cid) s = .ok c → c.transfer = false := by
  intro h
  exact absurd (h toyArmor _ exLabels (fun _ => 1) _ fileTransfer toyArmor_lawful (tableCodec_lawful [])
    ((C59_armored toyArmor_lawful (tableCodec_lawful []) _).1 (consignmentPlate_calm _ _) fileTransfer)) (by decide)

/-- Saving over a file loses the old container when interrupted: the file then loads neither as the old one nor as the new one. -/
theorem C59_overwrite_fails : ¬ ∀ (C : StreamCodec ConsignmentFile) (a b : ConsignmentFile) (old new : List Nat) (n : Nat), C.Lawful →
    save C contractMagic a = some old → save C contractMagic b = some new →
    load C contractMagic (crash old new n) = .ok a ∨ load C contractMagic (crash old new n) = .ok b := by
  intro h
  have := h conCodec fileCon { fileCon with version := 3 } _ _ 1 (tableCodec_lawful _)
    (by rw [save, if_pos (by simp [conCodec, tableCodec])]) (by rw [save, if_pos (by simp [conCodec, tableCodec])])
  rw [load_short _ _ _ (by simp [crash])] at this
  simp at this

example : save conCodec contractMagic fileCon = some [82, 71, 66, 0, 67, 79, 78, 0] ∧ save kitCodec kitMagic fileKit = some [82, 71, 66, 0, 75, 73, 84, 0] ∧
    (Universal.transfer fileTransfer).save kitCodec conCodec = some [82, 71, 66, 0, 84, 70, 82, 2] := by decide +kernel
example : load conCodec contractMagic [82, 71, 66, 0, 67, 79, 78, 0, 55] = .ok fileCon ∧ load conCodec transferMagic [82, 71, 66, 0, 67, 79, 78, 0] = .error .invalidMagic ∧
    load kitCodec kitMagic [82, 71, 66, 0, 75, 73] = .error .decode := by decide +kernel
example : (consignmentHeaders exLabels { fileTransfer with body := { World.con with terminals := [], ifaces := [] } }).map ArmorHeader.title =
      ["Version", "Type", "Contract", "Schema"] ∧
    (consignmentHeaders exLabels { fileCon with body := { World.con with terminals := [(5, 6)], ifaces := [(⟨7, [], 0⟩, ⟨0, 7, 1⟩)] } }).map ArmorHeader.title =
      ["Version", "Type", "Contract", "Schema", "Interface", "Terminal"] ∧
    (kitHeaders exLabels fileKit).map ArmorHeader.title = ["Version", "Schema", "Interface", "Type-System", "Alu-Lib"] := by decide +kernel
/-- A text of a transfer whose header has no values makes reading panic; with a value it is read. -/
example : checkTypeHeader fileTransfer [{ title := "Type", values := [] }] = none ∧ checkTypeHeader fileTransfer [{ title := "Type", values := ["a"] }] = some () ∧
    checkTypeHeader fileCon [{ title := "Type", values := [] }] = some () := by decide
example : conCodec.Lawful ∧ kitCodec.Lawful ∧ toyArmor.Lawful := ⟨tableCodec_lawful _, tableCodec_lawful _, toyArmor_lawful⟩

end Rgb.Props
