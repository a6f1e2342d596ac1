import Verif.Props.Compare

/- Property theorems C63: equality and the parts of arrays. -/
set_option autoImplicit false

namespace MultiArray.Props
open MultiArray MultiArray.Spec
variable {T : Type}

private theorem equal_iff [Nonempty T] {s : St T} {n : Nat} {a b : Desc} (ha : Readable s n a) (hb : Readable s n b) (dbg : Bool)
    (eq : T → T → Bool) :
    equalRef dbg eq s n a b = .ok true ↔ a.extents = b.extents ∧
      ∀ k, InShape a.extents k → ∃ x y, elemAt s a k = some x ∧ elemAt s b k = some y ∧ eq x y = true := by
  obtain ⟨r, h1, _, h2⟩ := C40_equality s n a b ha hb dbg eq
  rw [h1, Res.ok.injEq, h2]

private theorem readable_sub {s : St T} {n : Nat} {a a' : Desc} {i : Int} (ha : Readable s (n + 1) a) (h : access true i a = .ok a') :
    Readable s n a' := by
  obtain ⟨m, root, hr, hh, hl, hlen⟩ := ha
  refine ⟨m, root, hr, .sub hh h, hl, ?_⟩
  obtain ⟨e, es, t, ss, b, bs, he, rfl, _⟩ := access_true_ok h
  rw [he] at hlen
  simpa using hlen

private theorem elemAt_sub {s : St T} {a a' : Desc} {e : Nat} {es : List Nat} {b : Int} {x : Nat} {k : List Nat}
    (he : a.extents = e :: es) (hb : a.bases.head? = some b) (h : access true (b + (x : Int)) a = .ok a') :
    a'.extents = es ∧ elemAt s a' k = elemAt s a (x :: k) := by
  obtain ⟨e', es', t, ss, b', bs, hd, rfl, _⟩ := access_true_ok h
  rw [hd] at he hb
  cases he; cases hb
  refine ⟨rfl, ?_⟩
  rw [hd]
  simp [elemAt, address, atPos, dot, Ptr.add_add]

/-- **C63.** Two arrays (subarrays, views) are equal iff they have the same shape and their subarrays at every position are equal - so equality
passes to corresponding subarrays, and can be established row by row. -/
theorem C63_equal_iff_rows [Nonempty T] (s : St T) (n : Nat) (a b : Desc) (ha : Readable s (n + 1) a) (hb : Readable s (n + 1) b)
    (dbg : Bool) (eq : T → T → Bool) :
    ∃ e p q, a.extents.head? = some e ∧ a.bases.head? = some p ∧ b.bases.head? = some q ∧
      (equalRef dbg eq s (n + 1) a b = .ok true ↔ a.extents = b.extents ∧
        ∀ x : Nat, x < e → ∃ a' b', access true (p + (x : Int)) a = .ok a' ∧ access true (q + (x : Int)) b = .ok b' ∧
          equalRef dbg eq s n a' b' = .ok true) := by
  have wa := ha.ws
  have wb := hb.ws
  have la := ha.len
  have lb := hb.len
  rcases hda : a with ⟨pa, ea, sa, ba⟩
  rcases hdb : b with ⟨pb, eb, sb, bb⟩
  rw [hda] at wa la
  rw [hdb] at wb lb
  match ea, sa, ba, eb, sb, bb, wa, wb, la, lb, hda, hdb with
  | e :: es, t :: ss, p :: ps, e' :: es', t' :: ss', q :: qs, wa, wb, la, lb, hda, hdb =>
    refine ⟨e, p, q, rfl, rfl, rfl, ?_⟩
    rw [← hda, ← hdb, equal_iff ha hb]
    have hea : a.extents = e :: es := by rw [hda]
    have heb : b.extents = e' :: es' := by rw [hdb]
    have hba : a.bases.head? = some p := by rw [hda]; rfl
    have hbb : b.bases.head? = some q := by rw [hdb]; rfl
    constructor
    · rintro ⟨h1, h2⟩
      refine ⟨h1, fun x hx => ?_⟩
      have hxe' : x < e' := by rw [hea, heb] at h1; cases h1; exact hx
      have ka := access_ok true (p + (x : Int)) pa e es t ss p ps (by omega) (by omega)
      have kb := access_ok true (q + (x : Int)) pb e' es' t' ss' q qs (by omega) (by omega)
      rw [← hda] at ka
      rw [← hdb] at kb
      refine ⟨_, _, ka, kb, ?_⟩
      rw [equal_iff (readable_sub ha ka) (readable_sub hb kb)]
      refine ⟨by rw [hea, heb] at h1; cases h1; rfl, fun k hk => ?_⟩
      rw [(elemAt_sub hea hba ka).2, (elemAt_sub heb hbb kb).2]
      exact h2 (x :: k) (by rw [hea]; exact ⟨hx, hk⟩)
    · rintro ⟨h1, h2⟩
      refine ⟨h1, fun k hk => ?_⟩
      rw [hea] at hk
      match k, hk with
      | x :: k, ⟨hx, hk⟩ =>
        obtain ⟨a', b', ka, kb, h3⟩ := h2 x hx
        rw [equal_iff (readable_sub ha ka) (readable_sub hb kb)] at h3
        have := h3.2 k (by rw [(elemAt_sub (s := s) (k := k) hea hba ka).1]; exact hk)
        rw [(elemAt_sub hea hba ka).2, (elemAt_sub heb hbb kb).2] at this
        exact this

/-- **C63.** If two arrays with the same index bases are equal, every range list that is accepted for one is accepted for the other and selects equal views -
whatever the layouts of the two arrays. -/
theorem C63_equal_views [Nonempty T] (s : St T) (n : Nat) (a b : Desc) (ha : Readable s n a) (hb : Readable s n b) (dbg : Bool) (eq : T → T → Bool)
    (hbases : a.bases = b.bases) (heq : equalRef dbg eq s n a b = .ok true)
    {g : IndexGen} (hg : Built g) (hlen : g.ranges.length = n) 
    {v : View} (hno : StaysInside a g v) (hv : generateArrayView true g a = .ok v) :
    ∃ w, generateArrayView true g b = .ok w ∧ equalRef dbg eq s v.extents.length v.desc w.desc = .ok true := by
  obtain ⟨hext, hel⟩ := (equal_iff ha hb dbg eq).mp heq
  have hva : Readable s v.extents.length v.desc := by
    obtain ⟨m, root, hr, hh, hl, hlen'⟩ := ha
    exact ⟨m, root, hr, .view hh hno hg (by rw [hlen, hlen']) hv .refl, hl, rfl⟩
  obtain ⟨hleg, hnum, hve⟩ := genView_ok ha.ws (by rw [hlen, ha.len]) hv
  have hlegb : LegalRanges b.bases b.extents g.ranges := by rw [← hbases, ← hext]; exact hleg
  have hw : generateArrayView true g b = .ok (theView g b) := genView_legal true g b hb.ws hlegb hnum
  have hwext : (theView g b).extents = v.extents := by
    rw [hve, theView_extents, theView_extents, hbases, hext]
  have hnob : StaysInside b g (theView g b) := by
    intro j hj
    rw [← hbases, ← hext]
    apply hno
    rw [hwext] at hj
    have e1 : v.bases = List.replicate v.extents.length 0 := by rw [hve]; simp [theView, View.mkView]
    have e2 : (theView g b).bases = List.replicate v.extents.length 0 := by rw [← hwext]; simp [theView, View.mkView]
    rw [e1]; rw [e2] at hj; exact hj
  have hwb : Readable s v.extents.length (theView g b).desc := by
    have hlb := hb.len
    obtain ⟨m, root, hr, hh, hl, _⟩ := hb
    exact ⟨m, root, hr, .view hh hnob hg (by rw [hlen, hlb]) hw .refl, hl,
      by show (theView g b).extents.length = _; rw [hwext]⟩
  refine ⟨_, hw, ?_⟩
  rw [equal_iff hva hwb]
  refine ⟨hwext.symm, fun k hk => ?_⟩
  have hvb : v.bases = List.replicate v.extents.length 0 := by subst hve; simp [theView, View.mkView]
  have hwbs : (theView g b).bases = List.replicate v.extents.length 0 := by rw [← hwext]; simp [theView, View.mkView]
  have hk' : InShape v.extents k := hk
  have hin : InBox v.bases v.extents (atPos v.bases k) := inBox_atPos (by rw [hvb]; simp) hk'
  have hz : relPos (atPos v.bases k) v.bases = atPos v.bases k := by
    conv_lhs => rw [show relPos (atPos v.bases k) v.bases = relPos (atPos v.bases k) (List.replicate v.extents.length 0) by rw [← hvb]]
    exact relPos_zero _ _ hin.length.1
  have e1 : elemAt s v.desc k = s.get? (address a (selected g.ranges a.bases (atPos v.bases k))) := by
    show s.get? (address v.desc (atPos v.bases k)) = _
    rw [view_address ha.ws hleg (v' := v) (by rw [← hve]; exact .refl) _ hin.length.1, hz]
  have e2 : elemAt s (theView g b).desc k = s.get? (address b (selected g.ranges b.bases (atPos v.bases k))) := by
    show s.get? (address (theView g b).desc (atPos (theView g b).bases k)) = _
    rw [view_address hb.ws hlegb (v' := theView g b) .refl _ (by rw [hwbs, hwext]; rw [hvb] at hin; exact hin.length.1), hwbs, ← hvb, hz]
  have hsel : InBox a.bases a.extents (selected g.ranges a.bases (atPos v.bases k)) := hno _ hin
  obtain ⟨kk, hkk, hsel'⟩ := (inBox_iff_atPos ha.ws.2).mp hsel
  rw [e1, e2, ← hbases, hsel']
  have := hel kk hkk
  simp only [elemAt] at this
  rwa [← hbases] at this

/-- Non-vacuity: a view of `exArr` and the same view of itself are equal (24 live elements, a negative stride, an integer index). -/
example : Readable exSt2 3 exArr.desc ∧ equalRef true (fun x y => decide (x = y)) exSt2 3 exArr.desc exArr.desc = .ok true ∧
    Built exView ∧ ∃ v, StaysInside exArr.desc exView v ∧ generateArrayView true exView exArr.desc = .ok v ∧
    v.extents = [3, 2] := by
  refine ⟨⟨3, exArr, exArr_reachable, .array, ?_, rfl⟩, rfl, exView_built, _, staysInside_of_noOverrun (handle_wellShaped exArr_reachable .array) (by decide) exView_built rfl rfl, rfl, by decide⟩
  intro k hk
  change k < 24 at hk
  refine ⟨k, ?_⟩
  interval_cases k <;> rfl

/-! ### Instances: the theorems applied to concrete cases, whose hypotheses are thereby met -/

example := C63_equal_iff_rows exSt2 2 _ _ exArr_readable exArr2_readable true (fun x y => decide (x = y))

/- end of instances -/

end MultiArray.Props
