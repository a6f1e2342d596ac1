import Verif.Lemmas.Layout

/- Every reachable array header is well formed. -/
set_option autoImplicit false

namespace MultiArray
open Spec

theorem copyN_ok {α : Type} {l : List α} {n : Nat} {r : List α} (h : copyN l n = .ok r) :
    r = l.take n ∧ n ≤ l.length ∧ r.length = n := by
  unfold copyN at h
  split at h
  · cases h; rename_i hle; exact ⟨rfl, hle, by simp [hle]⟩
  · cases h

theorem copyN_self {α : Type} {l : List α} {n : Nat} (h : l.length = n) : copyN l n = .ok l := by
  simp [copyN, ← h]

theorem ARef.init_ok {n : Nat} {p : Ptr} {so : StorageOrder} {bs : List Int} {es : List Nat} {a : ARef}
    (h : ARef.init n p so bs es = .ok a) (hv : ValidOrder n so) (hb : bs.length = n) :
    a.WF n ∧ a.base = p ∧ a.storage = so ∧ a.bases = bs ∧ a.extents = es.take n ∧ n ≤ es.length := by
  unfold ARef.init at h
  cases hc : copyN es n with
  | assertFail => simp [hc] at h
  | ub => simp [hc] at h
  | ok ext =>
    obtain ⟨he, hle, hlen⟩ := copyN_ok hc
    simp only [hc, Res.bind_ok] at h
    obtain ⟨ss, hss, hsl⟩ := computeStrides_ok hv ext hlen (List.replicate n 0) (by simp)
    simp only [hss, Res.bind_ok, Res.ok.injEq] at h
    subst h
    exact ⟨⟨hv, hlen, hb, hss, rfl, rfl⟩, rfl, rfl, rfl, he, hle⟩

theorem ARef.init_succeeds {n : Nat} (p : Ptr) {so : StorageOrder} (bs : List Int) {es : List Nat}
    (hv : ValidOrder n so) (hle : n ≤ es.length) : ∃ a, ARef.init n p so bs es = .ok a := by
  unfold ARef.init
  have hlen : (es.take n).length = n := by simp [hle]
  obtain ⟨ss, hss, _⟩ := computeStrides_ok hv (es.take n) hlen (List.replicate n 0) (by simp)
  simp [copyN, hle, hss]

theorem ARef.reindexList_ok {n : Nat} {a a' : ARef} {bs : List Int} (hwf : a.WF n)
    (h : a.reindexList bs = .ok a') :
    a' = { a with bases := bs.take n, originOffset := calcOriginOffset a.strides a.extents a.storage (bs.take n) } ∧
      n ≤ bs.length := by
  unfold ARef.reindexList at h
  cases hc : copyN bs a.numDims with
  | assertFail => simp [hc] at h
  | ub => simp [hc] at h
  | ok b =>
    obtain ⟨hb, hle, hlen⟩ := copyN_ok hc
    simp only [ARef.numDims, hwf.ext_len] at hb hle
    simp only [hc, Res.bind_ok, Res.ok.injEq] at h
    subst hb
    exact ⟨h.symm, hle⟩

theorem ARef.reindexList_succeeds {n : Nat} {a : ARef} (bs : List Int) (hwf : a.WF n) (hle : n ≤ bs.length) :
    a.reindexList bs = .ok
      { a with bases := bs.take n, originOffset := calcOriginOffset a.strides a.extents a.storage (bs.take n) } := by
  simp [ARef.reindexList, copyN, ARef.numDims, hwf.ext_len, hle]

theorem ARef.WF.setBases {n : Nat} {a : ARef} (h : a.WF n) (bs : List Int) (hb : bs.length = n) :
    ARef.WF n { a with bases := bs, originOffset := calcOriginOffset a.strides a.extents a.storage bs } :=
  ⟨h.order, h.ext_len, hb, h.strides_eq, h.num_eq, rfl⟩

theorem ARef.WF.reindexList {n : Nat} {a a' : ARef} {bs : List Int} (h : a.WF n)
    (hr : a.reindexList bs = .ok a') : a'.WF n := by
  obtain ⟨rfl, hle⟩ := ARef.reindexList_ok h hr
  exact h.setBases _ (by simp [hle])

theorem ARef.WF.reindexAll {n : Nat} {a : ARef} (h : a.WF n) (b : Int) : (a.reindexAll b).WF n :=
  h.setBases _ (by simp [ARef.numDims, h.ext_len])

/-- A successful `reshape` with one extent per dimension. -/
theorem ARef.reshape_ok {n : Nat} {a a' : ARef} {dbg : Bool} {es : List Nat} (hwf : a.WF n)
    (hlen : es.length = n) (h : a.reshape dbg es = .ok a') :
    ∃ ss, computeStrides (List.replicate n 0) es a.storage = .ok ss ∧
      a' = { a with extents := es, strides := ss, originOffset := calcOriginOffset ss es a.storage a.bases } := by
  unfold ARef.reshape at h
  have hcp : copyPrefix es a.extents = .ok es := by simp [copyPrefix, hlen, hwf.ext_len]
  cases hass : Res.assert dbg (decide (a.numElems = product es)) with
  | assertFail => simp [hass] at h
  | ub => simp [hass] at h
  | ok u =>
    obtain ⟨ss, hss, hsl⟩ := computeStrides_ok hwf.order es hlen (List.replicate n 0) (by simp)
    have hss' : computeStrides a.strides es a.storage = .ok ss := by
      rw [computeStrides_init_irrelevant hwf.order es a.strides (List.replicate n 0) hwf.strides_len (by simp)]
      exact hss
    simp only [hass, Res.bind_ok, hcp, hss', Res.ok.injEq] at h
    exact ⟨ss, hss, h.symm⟩

theorem ARef.reshape_succeeds {n : Nat} {a : ARef} (dbg : Bool) {es : List Nat} (hwf : a.WF n)
    (hlen : es.length = n) (hp : es.prod = a.numElems) :
    ∃ a', a.reshape dbg es = .ok a' := by
  unfold ARef.reshape
  have hcp : copyPrefix es a.extents = .ok es := by simp [copyPrefix, hlen, hwf.ext_len]
  obtain ⟨ss, hss, hsl⟩ := computeStrides_ok hwf.order es hlen a.strides hwf.strides_len
  simp [product_eq, hp, hcp, hss]

theorem ARef.WF.reshape {n : Nat} {a a' : ARef} {dbg : Bool} {es : List Nat} (h : a.WF n)
    (hlen : es.length = n) (hp : es.prod = a.numElems) (hr : a.reshape dbg es = .ok a') : a'.WF n := by
  obtain ⟨ss, hss, rfl⟩ := ARef.reshape_ok h hlen hr
  exact ⟨h.order, hlen, h.bases_len, hss, by simp [product_eq, hp], rfl⟩

theorem ARef.ofShape_ok {n : Nat} {p : Ptr} {so : StorageOrder} {bs : Option (List Int)} {es : Option (List Nat)}
    {a : ARef} (h : ARef.ofShape n p so bs es = .ok a) (hv : ValidOrder n so) :
    a.WF n ∧ a.base = p ∧ a.storage = so ∧
      a.bases = (bs.getD (List.replicate n 0)).take n ∧ a.extents = (es.getD (List.replicate n 0)).take n := by
  have key : ∀ b : List Int, b.length = n → init n p so b (es.getD (List.replicate n 0)) = .ok a →
      a.WF n ∧ a.base = p ∧ a.storage = so ∧ a.bases = b ∧ a.extents = (es.getD (List.replicate n 0)).take n := by
    intro b hb hm
    have := ARef.init_ok hm hv hb
    exact ⟨this.1, this.2.1, this.2.2.1, this.2.2.2.1, this.2.2.2.2.1⟩
  unfold ARef.ofShape at h
  cases bs with
  | none =>
    have := key (List.replicate n 0) (by simp) (by cases es <;> simpa using h)
    simpa using this
  | some l =>
    cases hc : copyN l n with
    | assertFail => simp [hc] at h
    | ub => simp [hc] at h
    | ok b =>
      obtain ⟨rfl, hle, hlen⟩ := copyN_ok hc
      exact key _ hlen (by cases es <;> simpa [hc] using h)

theorem Spec.Reachable.wf {n : Nat} {a : ARef} (h : Reachable n a) : a.WF n := by
  induction h with
  | ofExtents hv he => exact (ARef.init_ok he hv (by simp)).1
  | ofExtentGen hv hn hl he =>
    subst hn
    exact (ARef.init_ok he hv (by simpa using hl)).1
  | ofShape hv he => exact (ARef.ofShape_ok he hv).1
  | reindexList _ hr ih => exact ih.reindexList hr
  | reindexAll _ ih => exact ih.reindexAll _
  | reshape _ hl hp hr ih => exact ih.reshape hl hp hr

end MultiArray
