import Verif.Lemmas.Open
import Verif.Spec.Open

/-!
Lemmas for C77: what is exported, what is imported from it.
-/

namespace Rgb
open MemStash

variable {H : Commit} {I : Ids} {E : Stock.Env}

theorem exportIfaces_ok {s : MemStash} (l : OMap Nat IimplDoc) (m : OSet IfaceDoc) (h : ∀ e ∈ l, ∃ d, s.ifaceByName e.1 = some d)
    (hl : m.length + l.length ≤ 255) (hm : OSet.Sorted m) :
    ∃ m', Stock.exportIfaces s l m = .ok m' ∧ (OSet.Sorted m' ∧ m'.length ≤ 255) ∧ ∀ d, d ∈ m' ↔ d ∈ m ∨ ∃ e ∈ l, s.ifaceByName e.1 = some d := by
  induction l generalizing m with
  | nil => exact ⟨m, rfl, ⟨hm, by simpa using hl⟩, by simp⟩
  | cons e l ih =>
    obtain ⟨d, hd⟩ := h e (by simp)
    simp only [List.length_cons] at hl
    have hlt : ¬ m.length ≥ tinyMax := by simp only [tinyMax]; omega
    have := Stock.length_oset_insert_le m d
    obtain ⟨m', h1, h2, h3⟩ := ih (OSet.insert m d) (fun e he => h e (by simp [he])) (by omega) (hm.insert d)
    refine ⟨m', by simp only [Stock.exportIfaces, hd, tinyPush, if_neg hlt, h1], h2, fun x => ?_⟩
    rw [h3, OSet.mem_insert]
    simp only [List.mem_cons, exists_eq_or_imp, hd, Option.some.injEq]
    constructor
    · rintro ((rfl | h) | h)
      · exact .inr (.inl rfl)
      · exact .inl h
      · exact .inr (.inr h)
    · rintro (h | rfl | h)
      · exact .inl (.inr h)
      · exact .inl (.inl rfl)
      · exact .inr h

theorem exportImpls_ok (l : List IimplDoc) (m : OSet IimplDoc) (hl : m.length + l.length ≤ 255) (hm : OSet.Sorted m) :
    ∃ m', Stock.exportImpls l m = .ok m' ∧ (OSet.Sorted m' ∧ m'.length ≤ 255) ∧ ∀ d, d ∈ m' ↔ d ∈ m ∨ d ∈ l := by
  induction l generalizing m with
  | nil => exact ⟨m, rfl, ⟨hm, by simpa using hl⟩, by simp⟩
  | cons d l ih =>
    simp only [List.length_cons] at hl
    have hlt : ¬ m.length ≥ tinyMax := by simp only [tinyMax]; omega
    have := Stock.length_oset_insert_le m d
    obtain ⟨m', h1, h2, h3⟩ := ih (OSet.insert m d) (by omega) (hm.insert d)
    refine ⟨m', by simp only [Stock.exportImpls, tinyPush, if_neg hlt, h1], h2, fun x => ?_⟩
    rw [h3, OSet.mem_insert, List.mem_cons]
    tauto

/-- What extracting gives. -/
theorem extract_cases (s : MemStash) (sd : SchemaDoc) (ifaces : List IfaceDoc) :
    (∃ t, t ∉ s.types ∧ (t ∈ E.schemaTypes sd ∨ ∃ d ∈ ifaces, t ∈ E.ifaceTypes d) ∧ Stock.extract E s sd ifaces = .error (.typeAbsent t)) ∨
    (∃ i ∈ E.schemaLibs sd, s.lib i = none ∧ Stock.extract E s sd ifaces = .error (.libAbsent i)) ∨
    ((∀ t, t ∈ E.schemaTypes sd ∨ (∃ d ∈ ifaces, t ∈ E.ifaceTypes d) → t ∈ s.types) ∧ (∀ i ∈ E.schemaLibs sd, (s.lib i).isSome = true) ∧
      ∃ ts ls, Stock.extract E s sd ifaces = .ok (ts, ls) ∧ OSet.Sorted ts ∧ (∀ t, t ∈ ts ↔ t ∈ E.schemaTypes sd ∨ ∃ d ∈ ifaces, t ∈ E.ifaceTypes d) ∧
        ∀ l, l ∈ ls ↔ ∃ i ∈ E.schemaLibs sd, s.lib i = some l) := by
  simp only [Stock.extract]
  cases h1 : (E.schemaTypes sd ++ ifaces.flatMap E.ifaceTypes).find? (fun t => decide (t ∉ s.types)) with
  | some t =>
    have := List.mem_of_find?_eq_some h1
    simp only [List.mem_append, List.mem_flatMap] at this
    exact .inl ⟨t, by simpa using List.find?_some h1, this, rfl⟩
  | none =>
    right
    cases h2 : (E.schemaLibs sd).find? (fun i => (s.lib i).isNone) with
    | some i => exact .inl ⟨i, List.mem_of_find?_eq_some h2, by simpa using List.find?_some h2, rfl⟩
    | none =>
      right
      refine ⟨fun t ht => ?_, fun i hi => ?_, _, _, rfl, OSet.Sorted.extend List.Pairwise.nil _, fun t => ?_, fun l => ?_⟩
      · have := List.find?_eq_none.mp h1 t (by simpa only [List.mem_append, List.mem_flatMap] using ht)
        simpa using this
      · have := List.find?_eq_none.mp h2 i hi
        cases h : s.lib i <;> simp_all
      · simp only [OSet.mem_ofList, List.mem_append, List.mem_flatMap]
      · have hs : OMap.Sorted (OMap.ofList ((E.schemaLibs sd).filterMap (fun i => (s.lib i).map (fun l => (i, l))))) := OMap.Sorted.extend OMap.Sorted.nil _
        have key : ∀ (is : List Nat) (m : OMap Nat Nat) i l, OMap.get? (OMap.extend m (is.filterMap (fun i => (s.lib i).map (fun l => (i, l))))) i = some l ↔
            (i ∈ is ∧ s.lib i = some l) ∨ ((i ∉ is ∨ s.lib i = none) ∧ OMap.get? m i = some l) := by
          intro is
          induction is with
          | nil => intro m i l; simp [OMap.extend]
          | cons a is ih =>
            intro m i l
            cases ha : s.lib a with
            | none =>
              rw [List.filterMap_cons_none (by simp [ha]), ih]
              by_cases hia : i = a
              · subst hia; simp [ha]
              · simp [hia]
            | some x =>
              rw [List.filterMap_cons_some (f := fun i => (s.lib i).map (fun l => (i, l))) (b := (a, x)) (by simp [ha]), OMap.extend_cons, ih, OMap.get?_insert]
              by_cases hia : i = a
              · subst hia; by_cases hi : i ∈ is <;> simp [ha, hi]
              · have : ¬ a = i := fun h => hia h.symm
                simp [hia]
        rw [Stock.mem_vals hs]
        constructor
        · rintro ⟨i, hi⟩
          rcases (key _ _ _ _).mp hi with h | ⟨-, h⟩
          · exact ⟨i, h⟩
          · cases h
        · rintro ⟨i, hi⟩
          exact ⟨i, (key _ _ _ _).mpr (.inl hi)⟩

/-- The interface found by its name is the one, if names differ. -/
theorem byName_iff {s : MemStash} (hs : OMap.Sorted s.ifaces) (hn : s.NamesDiffer) {j : Nat} {d : IfaceDoc} (h : s.ifaceById j = some d) :
    s.ifaceByName d.name = some d := by
  have hm : d ∈ OMap.vals s.ifaces := List.mem_map.mpr ⟨_, OMap.mem_of_get? h, rfl⟩
  simp only [ifaceByName]
  cases hf : (OMap.vals s.ifaces).find? (fun x => decide (x.name = d.name)) with
  | none => have := List.find?_eq_none.mp hf d hm; simp at this
  | some d' =>
    obtain ⟨i, hi⟩ := (Stock.mem_vals hs).mp (List.mem_of_find?_eq_some hf)
    have := hn i j d' d hi h (by simpa using List.find?_some hf)
    subst this
    rw [show s.ifaceById i = some d' from hi] at h
    exact h

theorem byName_some {s : MemStash} {j : Nat} {d : IfaceDoc} (h : s.ifaceById j = some d) : ∃ d', s.ifaceByName d.name = some d' ∧ d'.name = d.name := by
  have hm : d ∈ OMap.vals s.ifaces := List.mem_map.mpr ⟨_, OMap.mem_of_get? h, rfl⟩
  simp only [ifaceByName]
  cases hf : (OMap.vals s.ifaces).find? (fun x => decide (x.name = d.name)) with
  | none => have := List.find?_eq_none.mp hf d hm; simp at this
  | some d' => exact ⟨d', rfl, by simpa using List.find?_some hf⟩

/-- What exporting a known schema ends with. -/
theorem exportSchema_cases {k : Stock} (hk : Impls k.stash) {i : Nat} {si : SchemaIfaces} (hs : k.stash.schema i = some si) :
    ∃ ifaces iimpls, (OSet.Sorted ifaces ∧ ifaces.length ≤ 255) ∧ (OSet.Sorted iimpls ∧ iimpls.length ≤ 255) ∧ (∀ d, d ∈ ifaces ↔ ∃ e ∈ si.iimpls, k.stash.ifaceByName e.1 = some d) ∧
      (∀ x, x ∈ iimpls ↔ x ∈ OMap.vals si.iimpls) ∧
      k.exportSchema E i = (match Stock.extract E k.stash si.doc ifaces with
        | .error e => .error e
        | .ok (types, scripts) => .ok { ifaces := ifaces, schemata := [si.doc], iimpls := iimpls, types := types, scripts := OSet.ofList scripts }) := by
  obtain ⟨h1, h2⟩ := hk.impls i si hs
  obtain ⟨a, a1, a2, a3⟩ := exportIfaces_ok (s := k.stash) si.iimpls [] (fun e he => by
    obtain ⟨-, d, hd, rfl'⟩ := h2 e he
    rw [← rfl']
    exact (byName_some hd).imp fun _ h => h.1) (by simpa using h1) List.Pairwise.nil
  obtain ⟨b, b1, b2, b3⟩ := exportImpls_ok (OMap.vals si.iimpls) [] (by simpa [OMap.vals] using h1) List.Pairwise.nil
  exact ⟨a, b, a2, b2, by simpa using a3, by simpa using b3, by simp only [Stock.exportSchema, hs, a1, b1]; cases Stock.extract E k.stash si.doc a <;> rfl⟩

/-! Importing -/

theorem libs_import (F : Nat → Option Nat) (l : List Nat) (s : MemStash) (h : ∀ a ∈ l, F (I.lib a) = some a) :
    ∃ t, SR.each (replaceLib I) l s = some (t, .ok ()) ∧ t = { s with libs := t.libs } ∧
      ((∀ j a, s.lib j = some a → F j = some a) → ∀ j a, t.lib j = some a → F j = some a) ∧
      (∀ j, (s.lib j).isSome = true → (t.lib j).isSome = true) ∧ (∀ a ∈ l, (t.lib (I.lib a)).isSome = true) := by
  induction l generalizing s with
  | nil => exact ⟨s, rfl, rfl, fun h => h, fun _ h => h, by simp⟩
  | cons a l ih =>
    obtain ⟨t, h1, h2, h3, h4, h5⟩ := ih { s with libs := OMap.insert s.libs (I.lib a) a } (fun b hb => h b (by simp [hb]))
    have ha := h a (by simp)
    refine ⟨t, by simpa only [SR.each, replaceLib, SR.bind] using h1, h2, fun hF => h3 fun j b hb => ?_, fun j hj => h4 j ?_, fun b hb => ?_⟩
    · simp only [lib, OMap.get?_insert] at hb
      split at hb
      · rename_i heq; cases hb; subst heq; exact ha
      · exact hF j b hb
    · simp only [lib, OMap.get?_insert]
      split
      · rfl
      · exact hj
    · rcases List.mem_cons.mp hb with rfl | hb
      · exact h4 _ (by simp [lib])
      · exact h5 b hb

theorem ifaces_import (F : Nat → Option IfaceDoc) (l : List IfaceDoc) (s : MemStash) (h : ∀ d ∈ l, F (I.iface d) = some d) (hl : s.ifaces.length + l.length ≤ 255)
    (hs : ∀ j d, s.ifaceById j = some d → F j = some d) :
    ∃ t, SR.each (replaceIface I) l s = some (t, .ok ()) ∧ t = { s with ifaces := t.ifaces } ∧
      (∀ j d, t.ifaceById j = some d → F j = some d) ∧ (∀ j d, t.ifaceById j = some d → s.ifaceById j = some d ∨ d ∈ l) ∧
      (∀ j, (s.ifaceById j).isSome = true → (t.ifaceById j).isSome = true) ∧ (∀ d ∈ l, t.ifaceById (I.iface d) = some d) := by
  induction l generalizing s with
  | nil => exact ⟨s, rfl, rfl, hs, fun j d h => .inl h, fun _ h => h, by simp⟩
  | cons a l ih =>
    simp only [List.length_cons] at hl
    have ha := h a (by simp)
    by_cases hc : OMap.contains s.ifaces (I.iface a) = true
    · obtain ⟨t, h1, h2, h3, h3', h4, h5⟩ := ih s (fun b hb => h b (by simp [hb])) (by omega) hs
      refine ⟨t, by simpa only [SR.each, replaceIface, SR.bind, if_pos hc] using h1, h2, h3, fun j d hd => (h3' j d hd).imp id (by simp +contextual), h4, fun b hb => ?_⟩
      rcases List.mem_cons.mp hb with rfl | hb
      · obtain ⟨y, hy⟩ := OMap.contains_iff.mp hc
        obtain ⟨z, hz⟩ := Option.isSome_iff_exists.mp (h4 (I.iface b) (by simp [ifaceById, hy]))
        have := h3 _ _ hz
        rw [ha] at this
        rw [hz, this]
      · exact h5 b hb
    · have hlt : ¬ s.ifaces.length ≥ tinyMax := by simp only [tinyMax]; omega
      have := Stock.length_insert_le s.ifaces (I.iface a) a
      have hF : ∀ j d, ifaceById { s with ifaces := OMap.insert s.ifaces (I.iface a) a } j = some d → F j = some d := by
        intro j b hb
        simp only [ifaceById, OMap.get?_insert] at hb
        split at hb
        · rename_i heq; cases hb; subst heq; exact ha
        · exact hs j b hb
      obtain ⟨t, h1, h2, h3, h3', h4, h5⟩ := ih { s with ifaces := OMap.insert s.ifaces (I.iface a) a } (fun b hb => h b (by simp [hb])) (by simp only; omega) hF
      refine ⟨t, by simpa only [SR.each, replaceIface, SR.bind, if_neg hc, if_neg hlt] using h1, h2, h3, fun j d hd => ?_, fun j hj => h4 j ?_, fun b hb => ?_⟩
      · rcases h3' j d hd with h | h
        · simp only [ifaceById, OMap.get?_insert] at h
          split at h
          · cases h; exact .inr (by simp)
          · exact .inl h
        · exact .inr (by simp [h])
      · simp only [ifaceById, OMap.get?_insert]
        split
        · rfl
        · exact hj
      · rcases List.mem_cons.mp hb with rfl | hb
        · obtain ⟨z, hz⟩ := Option.isSome_iff_exists.mp (h4 (I.iface b) (by simp [ifaceById]))
          have := h3 _ _ hz
          rw [ha] at this
          rw [hz, this]
        · exact h5 b hb

theorem iimpls_import (F : Nat → Option IimplDoc) (σ : Nat) (l : List IimplDoc) (s : MemStash) {si : SchemaIfaces}
    (h : ∀ x ∈ l, x.schemaId = σ ∧ ∃ d, s.ifaceById x.ifaceId = some d ∧ F d.name = some x) (hsi : s.schema σ = some si)
    (hl : si.iimpls.length + l.length ≤ 255) (hF : ∀ n x, OMap.get? si.iimpls n = some x → F n = some x) :
    ∃ t si', SR.each replaceIimpl l s = some (t, .ok ()) ∧ t = { s with schemata := t.schemata } ∧ t.schema σ = some si' ∧ si'.doc = si.doc ∧
      (∀ j, j ≠ σ → t.schema j = s.schema j) ∧
      (∀ n x, OMap.get? si'.iimpls n = some x → F n = some x) ∧ (∀ n, (OMap.get? si.iimpls n).isSome = true → (OMap.get? si'.iimpls n).isSome = true) ∧
      ∀ x ∈ l, ∀ d, s.ifaceById x.ifaceId = some d → (OMap.get? si'.iimpls d.name).isSome = true := by
  induction l generalizing s si with
  | nil => exact ⟨s, si, rfl, rfl, hsi, rfl, fun _ _ => rfl, hF, fun _ h => h, by simp⟩
  | cons a l ih =>
    simp only [List.length_cons] at hl
    obtain ⟨rfl, d, hd, ha⟩ := h a (by simp)
    have hlt : ¬ si.iimpls.length ≥ tinyMax := by simp only [tinyMax]; omega
    have := Stock.length_insert_le si.iimpls d.name a
    obtain ⟨t, si', h1, h2, h3, h4, h5, h6, h7, h8⟩ := ih (si := { si with iimpls := OMap.insert si.iimpls d.name a })
      { s with schemata := OMap.insert s.schemata a.schemaId { si with iimpls := OMap.insert si.iimpls d.name a } }
      (fun b hb => h b (by simp [hb])) (by simp [schema]) (by simp only; omega) (fun n x hx => by
        simp only [OMap.get?_insert] at hx
        split at hx
        · rename_i heq; cases hx; subst heq; exact ha
        · exact hF n x hx)
    have hd' : OMap.get? s.ifaces a.ifaceId = some d := hd
    have hsi' : OMap.get? s.schemata a.schemaId = some si := hsi
    refine ⟨t, si', by simpa only [SR.each, replaceIimpl, SR.bind, hd', hsi', if_neg hlt] using h1, h2, h3, h4, fun j hj => ?_, h6, fun n hn => h7 n ?_, fun b hb d' hd'' => ?_⟩
    · rw [h5 j hj]; simp only [schema]; rw [OMap.get?_insert_ne]; exact hj
    · simp only [OMap.get?_insert]
      split
      · rfl
      · exact hn
    · rcases List.mem_cons.mp hb with rfl | hb
      · rw [hd] at hd''
        cases hd''
        exact h7 _ (by simp)
      · exact h8 b hb d' hd''

end Rgb
