import Verif.Lemmas.Invoice
import Mathlib.Logic.Equiv.List
/-! A concrete codec which satisfies `Codecs.Lawful`: shows that the assumptions on external codecs are consistent. -/
namespace Rgb.Inv
open Rgb

def toyShow (t : Char) (n : Nat) : Text := t :: '-' :: showNat n

def toyParse (t : Char) (s : Text) : Option Nat :=
  match dropDashes s with
  | c :: r => if c = t then parseDigits 0 r else none
  | [] => none

def voutList (p : Pay2Vout) : List Nat :=
  p.method.toByte :: (match p.address with
    | .pkh h => 1 :: h | .sh h => 2 :: h | .wpkh h => 3 :: h | .wsh h => 4 :: h | .tr k => 5 :: k)

def voutUnlist : List Nat → Option Pay2Vout
  | m :: 1 :: h => (CloseMethod.ofByte m).map (⟨·, .pkh h⟩)
  | m :: 2 :: h => (CloseMethod.ofByte m).map (⟨·, .sh h⟩)
  | m :: 3 :: h => (CloseMethod.ofByte m).map (⟨·, .wpkh h⟩)
  | m :: 4 :: h => (CloseMethod.ofByte m).map (⟨·, .wsh h⟩)
  | m :: 5 :: h => (CloseMethod.ofByte m).map (⟨·, .tr h⟩)
  | _ => none

def toyCodecs : Codecs where
  showContract := toyShow 'c'
  parseContract := toyParse 'c'
  showSeal := toyShow 'u'
  parseSeal := toyParse 'u'
  showVout p := toyShow 'w' (Encodable.encode (voutList p))
  parseVout s := (toyParse 'w' s).bind fun n => (Encodable.decode (α := List Nat) n).bind voutUnlist
  showAttach := toyShow 'z'
  parseAttach := toyParse 'z'
  validTypeName n := n.all (fun c => isPchar c && c != '~')

theorem dropDashes_showNat (n : Nat) : dropDashes (showNat n) = showNat n := by
  apply List.filter_eq_self.mpr
  intro c hc
  have : c ≠ '-' := by rintro rfl; exact showNat_not_mem n '-' (by decide) hc
  simpa using this

theorem toyParse_show (t : Char) (ht : t ≠ '-') (n : Nat) : toyParse t (toyShow t n) = some n := by
  have : dropDashes (toyShow t n) = t :: showNat n := by
    unfold toyShow dropDashes
    rw [List.filter_cons_of_pos (by simpa using ht), List.filter_cons_of_neg (by decide)]
    congr 1; exact dropDashes_showNat n
  unfold toyParse; rw [this]; simp [parseDigits_showNat]

theorem toyParse_dropDashes (t : Char) (s : Text) : toyParse t (dropDashes s) = toyParse t s := by
  have : dropDashes (dropDashes s) = dropDashes s := by simp [dropDashes, List.filter_filter]
  unfold toyParse; rw [this]

theorem toyParse_other (t t' : Char) (ht : t' ≠ '-') (h : t' ≠ t) (n : Nat) : toyParse t (toyShow t' n) = none := by
  have : dropDashes (toyShow t' n) = t' :: showNat n := by
    unfold toyShow dropDashes
    rw [List.filter_cons_of_pos (by simpa using ht), List.filter_cons_of_neg (by decide)]
    congr 1; exact dropDashes_showNat n
  unfold toyParse; rw [this]; simp [h]

theorem toyShow_chars (t : Char) (h : isPchar t = true ∧ t ≠ '+' ∧ t ≠ '@') (n : Nat) :
    ∀ c ∈ toyShow t n, isPchar c = true ∧ c ≠ '+' ∧ c ≠ '@' := by
  intro c hc
  simp only [toyShow, List.mem_cons] at hc
  rcases hc with rfl | rfl | hc
  · exact h
  · decide
  · have := digit_pchar (showNat_digits _ _ hc)
    refine ⟨this.1, this.2.1, ?_⟩
    rintro rfl; exact showNat_not_mem n '@' (by decide) hc

theorem voutUnlist_list (p : Pay2Vout) : voutUnlist (voutList p) = some p := by
  obtain ⟨m, a⟩ := p
  cases m <;> cases a <;> rfl

theorem toyCodecs_lawful (sp : Bool) : toyCodecs.Lawful sp where
  contract_rt := toyParse_show 'c' (by decide)
  contract_rt_nodash c := by
    show toyParse 'c' (dropDashes (toyShow 'c' c)) = some c
    rw [toyParse_dropDashes]; exact toyParse_show 'c' (by decide) c
  contract_empty := rfl
  contract_omitted := by decide
  contract_chars c ch h := (toyShow_chars 'c' (by decide) c ch h).1
  seal_rt := toyParse_show 'u' (by decide)
  seal_rt_nodash c := by
    show toyParse 'u' (dropDashes (toyShow 'u' c)) = some c
    rw [toyParse_dropDashes]; exact toyParse_show 'u' (by decide) c
  seal_chars c ch h := ⟨(toyShow_chars 'u' (by decide) c ch h).1, (toyShow_chars 'u' (by decide) c ch h).2.1⟩
  vout_rt p := by
    show (toyParse 'w' (toyShow 'w' (Encodable.encode (voutList p)))).bind _ = some p
    rw [toyParse_show 'w' (by decide)]; simp [voutUnlist_list]
  vout_rt_nodash p := by
    show (toyParse 'w' (dropDashes (toyShow 'w' (Encodable.encode (voutList p))))).bind _ = some p
    rw [toyParse_dropDashes, toyParse_show 'w' (by decide)]; simp [voutUnlist_list]
  vout_chars c ch h := ⟨(toyShow_chars 'w' (by decide) _ ch h).1, (toyShow_chars 'w' (by decide) _ ch h).2.1⟩
  vout_not_seal p := toyParse_other 'u' 'w' (by decide) (by decide) (Encodable.encode (voutList p))
  vout_not_seal_nodash p := by
    show toyParse 'u' (dropDashes (toyShow 'w' (Encodable.encode (voutList p)))) = none
    rw [toyParse_dropDashes]; exact toyParse_other 'u' 'w' (by decide) (by decide) _
  attach_rt := toyParse_show 'z' (by decide)
  attach_chars c ch h := toyShow_chars 'z' (by decide) c ch h
  attach_not_amount a := ⟨'z', by simp [toyCodecs, toyShow], by decide⟩
  typename_chars n h ch hch := by
    have := List.all_eq_true.mp h ch hch
    simp only [Bool.and_eq_true] at this; exact this.1
  typename_omitted := by decide

end Rgb.Inv
