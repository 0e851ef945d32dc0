import Verif.Lemmas.Merge

namespace Rgb
variable {H : Commit}

/-- Reveal of all hidden seals known by `g`. -/
def Assign.revealWith (g : Nat → Option Seal) : Assign → Assign
  | .confidentialSeal h st => match g h with
    | some s => .revealed s st
    | none => .confidentialSeal h st
  | .confidential h t => match g h with
    | some s => .confidentialState s t
    | none => .confidential h t
  | a => a

def TypedAssigns.revealWith (g : Nat → Option Seal) (t : TypedAssigns) : TypedAssigns :=
  { t with items := t.items.map (Assign.revealWith g) }

def Op.revealWith (g : Nat → Option Seal) (o : Op) : Op :=
  { o with assigns := OMap.mapVals (TypedAssigns.revealWith g) o.assigns }

def ClientBundle.revealWith (g : Nat → Option Seal) (c : ClientBundle) : ClientBundle :=
  { c with bundle := { c.bundle with known := OMap.mapVals (Op.revealWith g) c.bundle.known } }

def oneSeal (H : Commit) (s : Seal) : Nat → Option Seal := fun h => if h = H.sealHash s then some s else none

/-- `g` only knows right seals. -/
def Right (H : Commit) (g : Nat → Option Seal) : Prop := ∀ h s, g h = some s → H.sealHash s = h

theorem right_oneSeal (s : Seal) : Right H (oneSeal H s) := by
  intro h t ht
  simp only [oneSeal] at ht
  split at ht
  · cases ht; simp_all
  · cases ht

theorem Assign.revealSeal_eq (s : Seal) (a : Assign) : a.revealSeal H s = a.revealWith (oneSeal H s) := by
  cases a <;> simp only [Assign.revealSeal, Assign.revealWith, oneSeal] <;> split <;> simp_all

theorem TypedAssigns.revealSeal_eq (s : Seal) (a : TypedAssigns) :
    a.revealSeal H s = a.revealWith (oneSeal H s) := by
  have : Assign.revealSeal H s = Assign.revealWith (oneSeal H s) := funext (Assign.revealSeal_eq s)
  simp [TypedAssigns.revealSeal, TypedAssigns.revealWith, this]

theorem Op.revealSeal_eq (s : Seal) (a : Op) : a.revealSeal H s = a.revealWith (oneSeal H s) := by
  have : TypedAssigns.revealSeal H s = TypedAssigns.revealWith (oneSeal H s) :=
    funext (TypedAssigns.revealSeal_eq s)
  simp [Op.revealSeal, Op.revealWith, this]

theorem ClientBundle.revealSeal_eq (s : Seal) (a : ClientBundle) :
    a.revealSeal H s = a.revealWith (oneSeal H s) := by
  have : Op.revealSeal H s = Op.revealWith (oneSeal H s) := funext (Op.revealSeal_eq s)
  simp [ClientBundle.revealSeal, Bundle.revealSeal, ClientBundle.revealWith, this]

def orSeal (g g' : Nat → Option Seal) : Nat → Option Seal := fun h => (g h).or (g' h)

theorem Assign.revealWith_comp (g g' : Nat → Option Seal) (a : Assign) :
    (a.revealWith g).revealWith g' = a.revealWith (orSeal g g') := by
  cases a with
  | confidential h t => cases hg : g h <;> simp [Assign.revealWith, orSeal, hg]
  | confidentialSeal h t => cases hg : g h <;> simp [Assign.revealWith, orSeal, hg]
  | confidentialState => rfl
  | revealed => rfl

theorem TypedAssigns.revealWith_comp (g g' : Nat → Option Seal) (a : TypedAssigns) :
    (a.revealWith g).revealWith g' = a.revealWith (orSeal g g') := by
  simp [TypedAssigns.revealWith, Function.comp_def, Assign.revealWith_comp]

theorem Op.revealWith_comp (g g' : Nat → Option Seal) (a : Op) :
    (a.revealWith g).revealWith g' = a.revealWith (orSeal g g') := by
  simp [Op.revealWith, OMap.mapVals, Function.comp_def, TypedAssigns.revealWith_comp]

theorem ClientBundle.revealWith_comp (g g' : Nat → Option Seal) (a : ClientBundle) :
    (a.revealWith g).revealWith g' = a.revealWith (orSeal g g') := by
  simp [ClientBundle.revealWith, OMap.mapVals, Function.comp_def, Op.revealWith_comp]

theorem Assign.revealWith_none (a : Assign) : a.revealWith (fun _ => none) = a := by cases a <;> rfl

theorem TypedAssigns.revealWith_none (a : TypedAssigns) : a.revealWith (fun _ => none) = a := by
  have : Assign.revealWith (fun _ => none) = id := funext Assign.revealWith_none
  simp [TypedAssigns.revealWith, this]

theorem Op.revealWith_none (a : Op) : a.revealWith (fun _ => none) = a := by
  have : TypedAssigns.revealWith (fun _ => none) = _root_.id := funext TypedAssigns.revealWith_none
  simp [Op.revealWith, OMap.mapVals, this]

theorem ClientBundle.revealWith_none (a : ClientBundle) : a.revealWith (fun _ => none) = a := by
  have : Op.revealWith (fun _ => none) = id := funext Op.revealWith_none
  simp [ClientBundle.revealWith, OMap.mapVals, this]

theorem Assign.disclosed_revealWith {g : Nat → Option Seal} (hg : Right H g) (a : Assign) :
    Assign.Disclosed H g a (a.revealWith g) := by
  cases a with
  | confidential h t =>
    cases hh : g h with
    | none => simp [Assign.Disclosed, Assign.revealWith, hh, Assign.state?, Assign.conceal, Assign.seal?, Assign.secret]
    | some s =>
      have := hg h s hh
      simp [Assign.Disclosed, Assign.revealWith, hh, Assign.state?, Assign.conceal, Assign.seal?, Assign.secret, this]
  | confidentialSeal h t =>
    cases hh : g h with
    | none => simp [Assign.Disclosed, Assign.revealWith, hh, Assign.state?, Assign.conceal, Assign.seal?, Assign.secret]
    | some s =>
      have := hg h s hh
      simp [Assign.Disclosed, Assign.revealWith, hh, Assign.state?, Assign.conceal, Assign.seal?, Assign.secret, this]
  | confidentialState s t => simp [Assign.Disclosed, Assign.revealWith, Assign.seal?]
  | revealed s t => simp [Assign.Disclosed, Assign.revealWith, Assign.seal?]

theorem Op.revealWith_id {g : Nat → Option Seal} (hg : Right H g) (o : Op) :
    (o.revealWith g).id H = o.id H := by
  have h1 : ∀ a : Assign, (a.revealWith g).conceal H = a.conceal H :=
    fun a => (Assign.disclosed_revealWith hg a).2.1
  have h2 : ∀ t : TypedAssigns, (t.revealWith g).conceal H = t.conceal H := by
    intro t; simp [TypedAssigns.revealWith, TypedAssigns.conceal, Function.comp_def, h1]
  simp [Op.id, Op.conceal, Op.revealWith, Assignments.conceal, OMap.mapVals, Function.comp_def, h2]

theorem Op.revealWith_at (g : Nat → Option Seal) (o : Op) (ty i : Nat) :
    (o.revealWith g).at? ty i = (o.at? ty i).map (Assign.revealWith g) := by
  simp only [Op.at?, Op.revealWith, OMap.get?_mapVals]
  cases OMap.get? o.assigns ty with
  | none => rfl
  | some t => simp [TypedAssigns.revealWith]

theorem Op.disclosed_revealWith {g : Nat → Option Seal} (hg : Right H g) (o : Op) :
    Op.Disclosed H g o (o.revealWith g) := by
  refine ⟨rfl, Op.revealWith_id hg o, ?_, ?_⟩
  · intro ty i h; rw [Op.revealWith_at, h]; rfl
  · intro ty i x h
    exact ⟨x.revealWith g, by rw [Op.revealWith_at, h]; rfl, Assign.disclosed_revealWith hg x⟩

theorem ClientBundle.disclosed_revealWith {g : Nat → Option Seal} (hg : Right H g) (c : ClientBundle) :
    ClientBundle.Disclosed H g c (c.revealWith g) := by
  refine ⟨rfl, rfl, rfl, rfl, rfl, ?_, ?_⟩
  · intro k h; simp [ClientBundle.revealWith, OMap.get?_mapVals, h]
  · intro k o h
    exact ⟨o.revealWith g, by simp [ClientBundle.revealWith, OMap.get?_mapVals, h],
      Op.disclosed_revealWith hg o⟩

/-- Seal which the terminals allow to reveal in a bundle. -/
def termSeal {ε : Type} (f : Nat → Except ε (Option Seal)) (terminals : List (Nat × Nat)) (bid h : Nat) :
    Option Seal :=
  if (bid, h) ∈ terminals then resolved f h else none

theorem WitnessBundle.revealSeal_list (hH : H.Binding) (w : WitnessBundle) (hw : w.WF) (bid : Nat) (s : Seal) :
    (w.revealSeal H bid s).2.anchored.list =
      w.anchored.list.map (fun c => if c.bundle.id H = bid then c.revealSeal H s else c) ∧
    (w.revealSeal H bid s).2.pub = w.pub ∧ (w.revealSeal H bid s).2.WF ∧
    (w.revealSeal H bid s).1 = decide (∃ c ∈ w.anchored.list, c.bundle.id H = bid) := by
  obtain ⟨p, a⟩ := w
  cases a with
  | tapret t =>
    by_cases h : t.bundle.id H = bid
    · simp [WitnessBundle.revealSeal, AnchoredBundles.list, h, WitnessBundle.WF, ClientBundle.revealSeal,
        Bundle.revealSeal] at hw ⊢
      exact hw
    · simp [WitnessBundle.revealSeal, AnchoredBundles.list, h, WitnessBundle.WF] at hw ⊢
      exact hw
  | opret t =>
    by_cases h : t.bundle.id H = bid
    · simp [WitnessBundle.revealSeal, AnchoredBundles.list, h, WitnessBundle.WF, ClientBundle.revealSeal,
        Bundle.revealSeal] at hw ⊢
      exact hw
    · simp [WitnessBundle.revealSeal, AnchoredBundles.list, h, WitnessBundle.WF] at hw ⊢
      exact hw
  | double t o =>
    have hne : t.bundle.id H ≠ o.bundle.id H := by
      intro h
      have := (hH.bundle_inj _ _ _ _ h).1
      simp only [WitnessBundle.WF] at hw
      rw [hw.1, hw.2] at this; cases this
    by_cases h : t.bundle.id H = bid
    · have h' : o.bundle.id H ≠ bid := fun e => hne (h.trans e.symm)
      simp [WitnessBundle.revealSeal, AnchoredBundles.list, h, h', WitnessBundle.WF, ClientBundle.revealSeal,
        Bundle.revealSeal] at hw ⊢
      exact hw
    · by_cases h' : o.bundle.id H = bid
      · simp [WitnessBundle.revealSeal, AnchoredBundles.list, h, h', WitnessBundle.WF, ClientBundle.revealSeal,
          Bundle.revealSeal] at hw ⊢
        exact hw
      · simp [WitnessBundle.revealSeal, AnchoredBundles.list, h, h', WitnessBundle.WF] at hw ⊢
        exact hw

theorem orSeal_termSeal {ε : Type} (f : Nat → Except ε (Option Seal))
    (hf : ∀ h s, f h = .ok (some s) → H.sealHash s = h)
    (bid secret : Nat) (rest : List (Nat × Nat)) (s : Seal) (hs : f secret = .ok (some s)) :
    orSeal (oneSeal H s) (termSeal f rest bid) = termSeal f ((bid, secret) :: rest) bid := by
  funext h
  have := hf _ _ hs
  by_cases hh : h = secret
  · subst hh; simp [orSeal, oneSeal, termSeal, resolved, this, hs]
  · simp [orSeal, oneSeal, termSeal, this, hh]

theorem termSeal_skip {ε : Type} (f : Nat → Except ε (Option Seal)) (bid bid' secret : Nat)
    (rest : List (Nat × Nat)) (h : bid ≠ bid') :
    termSeal f ((bid', secret) :: rest) bid = termSeal f rest bid := by
  funext x; simp [termSeal, h]

theorem termSeal_none {ε : Type} (f : Nat → Except ε (Option Seal)) (bid bid' secret : Nat)
    (rest : List (Nat × Nat)) (h : f secret = .ok none) :
    termSeal f ((bid', secret) :: rest) bid = termSeal f rest bid := by
  funext x
  by_cases hx : x = secret
  · subst hx; simp [termSeal, resolved, h]
  · simp [termSeal, hx]

theorem WitnessBundle.revealTerminals_spec {ε : Type} (hH : H.Binding) (f : Nat → Except ε (Option Seal))
    (hf : ∀ h s, f h = .ok (some s) → H.sealHash s = h) (terminals : List (Nat × Nat))
    (w w' : WitnessBundle) (hw : w.WF) (h : w.revealTerminals H f terminals = .ok w') :
    w'.pub = w.pub ∧ w'.WF ∧
    w'.anchored.list = w.anchored.list.map (fun c => c.revealWith (termSeal f terminals (c.bundle.id H))) := by
  induction terminals generalizing w with
  | nil =>
    cases h
    refine ⟨rfl, hw, ?_⟩
    have : ∀ c : ClientBundle, c.revealWith (termSeal f [] (c.bundle.id H)) = c := by
      intro c
      have : termSeal f [] (c.bundle.id H) = fun _ => none := by funext x; simp [termSeal]
      rw [this, ClientBundle.revealWith_none]
    simp [this]
  | cons e rest ih =>
    obtain ⟨bid, secret⟩ := e
    simp only [WitnessBundle.revealTerminals] at h
    split at h
    · cases h
    · rename_i hn
      obtain ⟨h1, h2, h3⟩ := ih w hw h
      refine ⟨h1, h2, h3.trans ?_⟩
      refine List.map_congr_left fun c _ => ?_
      rw [termSeal_none f _ _ _ _ hn]
    · rename_i s hs
      obtain ⟨g1, g2, g3, -⟩ := WitnessBundle.revealSeal_list hH w hw bid s
      obtain ⟨h1, h2, h3⟩ := ih _ g3 h
      refine ⟨h1.trans g2, h2, h3.trans ?_⟩
      rw [g1, List.map_map]
      refine List.map_congr_left fun c _ => ?_
      simp only [Function.comp]
      split
      · rename_i hc
        have hid : (c.revealSeal H s).bundle.id H = c.bundle.id H := rfl
        rw [hid, hc, ClientBundle.revealSeal_eq, ClientBundle.revealWith_comp, orSeal_termSeal f hf _ _ _ _ hs]
      · rename_i hc
        rw [termSeal_skip f _ _ _ _ hc]

theorem right_termSeal {ε : Type} (f : Nat → Except ε (Option Seal))
    (hf : ∀ h s, f h = .ok (some s) → H.sealHash s = h) (terminals : List (Nat × Nat)) (bid : Nat) :
    Right H (termSeal f terminals bid) := by
  intro h s hs
  simp only [termSeal, resolved] at hs
  split at hs
  · split at hs
    · rename_i heq; subst hs; exact hf _ _ heq
    · cases hs
  · cases hs

end Rgb
