import Verif.Proofs.CCLoop
import Verif.Model.Driver
import Verif.Model.Exact
import Mathlib.Data.Rat.Floor
import Mathlib.Algebra.Order.Ring.Rat
/-!
# C20, C21, C28–C31 — the cell computation, for any arithmetic

Everything in this file holds for every interpretation of the floating point operations:
`FP F D` is an arbitrary set of total functions without laws.
-/
set_option linter.unusedSectionVars false
namespace Votess

open FP

variable {F D : Type} [FP F D]

/-- what `cci::compute` may rely on: rows of the right size, valid ids, sizes in range -/
structure CellInput (a : CCArgs) (xyz : List (Pt F)) (index : Int) (P : List (Plane F))
    (T : List Tri) (dR : List Nat) (knn dknn : List Int) : Prop where
  pm6 : 6 ≤ a.pm
  pm255 : a.pm ≤ 255
  tm8 : 8 ≤ a.tm
  tm : a.tm < 32768
  k : a.k < 65536
  self : 0 ≤ index ∧ index < xyz.length
  ids : ∀ v ∈ knn, 0 ≤ v ∧ v < xyz.length
  klen : knn.length = a.k
  plen : P.length = a.pm
  tlen : T.length = a.tm
  dlen : dR.length = a.pm
  dklen : dknn.length = a.k

theorem rdI_valid {α : Type} {l : List α} {i : Int} (h : 0 ≤ i ∧ i < l.length) :
    ∃ x, rdI l i = .ok x :=
  ⟨_, rdI_eq_ok.mpr ⟨h.1, List.getElem?_eq_getElem (by omega)⟩⟩

theorem CellInput.pre {a : CCArgs} {xyz : List (Pt F)} {index : Int} {P : List (Plane F)}
    {T : List Tri} {dR : List Nat} {knn dknn : List Int} (h : CellInput a xyz index P T dR knn dknn) :
    CCPre a xyz index P T dR knn dknn where
  ctx := ⟨h.pm255, h.klen, fun i hi => by
    have hi' : i < knn.length := by rw [h.klen]; exact hi
    obtain ⟨q, hq⟩ := rdI_valid (l := xyz) (h.ids knn[i] (List.getElem_mem hi'))
    exact ⟨knn[i], q, List.getElem?_eq_getElem hi', hq⟩⟩
  fits := by
    have := h.pm255; have := h.tm; have := h.k
    simp [CCArgs.fits]; omega
  pm6 := h.pm6
  tm8 := h.tm8
  self := rdI_valid h.self
  plen := h.plen
  tlen := h.tlen
  dlen := h.dlen
  klen := h.dklen

theorem cell_res {a : CCArgs} {xyz : List (Pt F)} {index : Int} {P : List (Plane F)}
    {T : List Tri} {dR : List Nat} {knn dknn : List Int} (h : CellInput a xyz index P T dR knn dknn)
    {st : State} (hst : ∀ f, st.get f = false) :
    ∃ o p, ccCompute a xyz index st P T dR knn dknn = .ok o ∧ rdI xyz index = .ok p ∧
      CCRes a xyz p knn dknn o := by
  obtain ⟨p, hp⟩ := rdI_valid h.self
  obtain ⟨o, h1, h2⟩ := ccCompute_res hst h.pre hp
  exact ⟨o, p, h1, hp, h2⟩

/-! ### C21 -/

/-- C21: with valid sizes and ids the function returns (no abnormal outcome) and every row has
the size it had before; this holds for any behaviour of the arithmetic and any contents of the
work buffers. -/
theorem C21_cell_safe {a : CCArgs} {xyz : List (Pt F)} {index : Int} {P : List (Plane F)}
    {T : List Tri} {dR : List Nat} {knn dknn : List Int} (h : CellInput a xyz index P T dR knn dknn) :
    ∃ o, ccCompute a xyz index .init P T dR knn dknn = .ok o ∧ o.s.P.length = P.length ∧
      o.s.T.length = T.length ∧ o.s.dR.length = dR.length ∧ o.s.dknn.length = dknn.length ∧
      o.knn.length = knn.length := by
  obtain ⟨o, p, h1, -, h2⟩ := cell_res h State.get_init
  refine ⟨o, h1, by rw [h2.sizes.plen, h.plen], by rw [h2.sizes.tlen, h.tlen],
    by rw [h2.sizes.dlen, h.dlen], by rw [h2.sizes.klen, h.dklen], ?_⟩
  rcases h2.res with ⟨-, h3⟩ | ⟨h3, -, -, h4⟩
  · rw [h3]
  · rw [h4, h.klen, List.length_append, List.length_replicate]
    have := selected_length_le (o.s.T.take o.s.tsize) o.s.dknn knn
    have := h3.klen
    omega

theorem wrAll_short {α : Type} (v : List α) : ∀ (a : List α) (i : Nat), a.length < i + v.length →
    i ≤ a.length → wrAll a i v = .error .oob := by
  induction v with
  | nil => intro a i h1 h2; simp at h1; omega
  | cons x v ih =>
    intro a i h1 h2
    unfold wrAll
    rw [List.length_cons] at h1
    by_cases hi : i < a.length
    · rw [wr_ok hi, bind_ok]
      exact ih _ _ (by simp; omega) (by simp; omega)
    · unfold wr; rw [if_neg hi]; rfl

/-- C21: below the minimal sizes 6 and 8 the function does write outside its row. -/
theorem C21_cell_too_small {a : CCArgs} {xyz : List (Pt F)} {index : Int} {P : List (Plane F)}
    {T : List Tri} {dR : List Nat} {knn dknn : List Int} (st : State)
    (hself : 0 ≤ index ∧ index < xyz.length) (hk : a.k < 65536) (hP : P.length = a.pm)
    (hT : T.length = a.tm) (hpm : a.pm < 65536) (htm : a.tm < 32768) (hs : a.pm < 6 ∨ a.tm < 8) :
    ccCompute a xyz index st P T dR knn dknn = .error .oob := by
  obtain ⟨p, hp⟩ := rdI_valid hself
  have hf : a.fits = true := by simp [CCArgs.fits]; omega
  have e8 : tInit.length = 8 := rfl
  have e6 : (pInit : List (Plane F)).length = 6 := rfl
  unfold ccCompute
  rw [hf, hp]
  simp only [Bool.not_true, Bool.false_eq_true, if_false, bind_ok]
  have : ccInit st P T dR dknn = .error .oob := by
    unfold ccInit
    by_cases h6 : a.pm < 6
    · rw [wrAll_short _ _ _ (by omega) (by omega)]; rfl
    · obtain ⟨P', p1, -, -⟩ := wrAll_ok (pInit : List (Plane F)) P 0 (by omega)
      rw [p1, bind_ok, wrAll_short _ _ _ (by omega) (by omega)]; rfl
  rw [this]; rfl

/-! ### C28 -/

/-- C28: a computed cell with `psize` planes has at most `2 * psize - 4` vertices. -/
theorem C28_vertex_bound {a : CCArgs} {xyz : List (Pt F)} {index : Int} {P : List (Plane F)}
    {T : List Tri} {dR : List Nat} {knn dknn : List Int} (h : CellInput a xyz index P T dR knn dknn)
    {o : CCOut F} (ho : ccCompute a xyz index .init P T dR knn dknn = .ok o)
    (hok : ∀ f, f = .error_p_overflow ∨ f = .error_t_overflow ∨ f = .error_infinite_boundary →
      o.s.state.get f = false) : o.s.tsize ≤ 2 * o.s.psize - 4 ∧ o.s.psize ≤ a.pm := by
  obtain ⟨o', p, h1, -, h2⟩ := cell_res h State.get_init
  rw [ho] at h1; cases h1
  rcases h2.res with ⟨h3, -⟩ | ⟨h3, -⟩
  · cases h3 with
    | pover h _ => have := hok .error_p_overflow (by simp); rw [h] at this; simp at this
    | tover h _ _ _ => have := hok .error_t_overflow (by simp); rw [h] at this; simp at this
    | inf h => have := hok .error_infinite_boundary (by simp); rw [h] at this; simp at this
  · have := h3.cnt; have := h3.pp; omega

/-- C28: with `t_maxsize ≥ 2 * p_maxsize - 4`, or with `t_maxsize ≥ 2 * k + 8`, the vertex overflow flag is
never raised. -/
theorem C28_no_vertex_overflow {a : CCArgs} {xyz : List (Pt F)} {index : Int} {P : List (Plane F)}
    {T : List Tri} {dR : List Nat} {knn dknn : List Int} (h : CellInput a xyz index P T dR knn dknn)
    (hcap : 2 * a.pm - 4 ≤ a.tm ∨ 2 * a.k + 8 ≤ a.tm) {o : CCOut F}
    (ho : ccCompute a xyz index .init P T dR knn dknn = .ok o) :
    o.s.state.get .error_t_overflow = false := by
  obtain ⟨o', p, h1, -, h2⟩ := cell_res h State.get_init
  rw [ho] at h1; cases h1
  rcases h2.res with ⟨h3, -⟩ | ⟨h3, -, h4 | h4, -⟩
  · cases h3 with
    | pover h _ => rw [h]; rfl
    | tover _ hp hp' hk => omega
    | inf h => rw [h]; rfl
  · rw [h4]; rfl
  · rw [h4]

/-! ### C29 -/

/-- C29: starting from a cleared state the flags after the call form one of five patterns:
nothing, radius reached, plane overflow, vertex overflow, or infinite boundary together with
'error occurred'. -/
theorem C29_flags {a : CCArgs} {xyz : List (Pt F)} {index : Int} {P : List (Plane F)}
    {T : List Tri} {dR : List Nat} {knn dknn : List Int} (h : CellInput a xyz index P T dR knn dknn)
    {o : CCOut F} (ho : ccCompute a xyz index .init P T dR knn dknn = .ok o) :
    ∃ flags : List Status, (∀ f, o.s.state.get f = true ↔ f ∈ flags) ∧
      flags ∈ [[], [.security_radius_reached], [.error_p_overflow], [.error_t_overflow],
        [.error_infinite_boundary, .error_occurred]] := by
  obtain ⟨o', p, h1, -, h2⟩ := cell_res h State.get_init
  rw [ho] at h1; cases h1
  rcases h2.res with ⟨h3, -⟩ | ⟨h3, -, h4 | h4, -⟩
  · cases h3 with
    | pover h _ => exact ⟨[.error_p_overflow], fun f => by rw [h]; simp, by simp⟩
    | tover h _ _ _ => exact ⟨[.error_t_overflow], fun f => by rw [h]; simp, by simp⟩
    | inf h => exact ⟨[.error_infinite_boundary, .error_occurred], fun f => by rw [h]; simp, by simp⟩
  · exact ⟨[.security_radius_reached], fun f => by rw [h4]; simp, by simp⟩
  · exact ⟨[], fun f => by rw [h4]; simp, by simp⟩

/-! ### C30, C31 -/

theorem takeWhile_append_replicate {l : List Int} (hl : ∀ v ∈ l, v ≠ kUndefined) (m : Nat) :
    tmpnnRow (l ++ List.replicate m kUndefined) = l := by
  unfold tmpnnRow
  rw [List.takeWhile_append_of_pos (by simpa using hl)]
  cases m <;> simp [List.replicate_succ]

/-- C30: after a plane overflow, a vertex overflow or an infinite boundary the row still is the
complete candidate list, and it is copied completely to the result. -/
theorem C30_failed_row {a : CCArgs} {xyz : List (Pt F)} {index : Int} {P : List (Plane F)}
    {T : List Tri} {dR : List Nat} {knn dknn : List Int} (h : CellInput a xyz index P T dR knn dknn)
    {o : CCOut F} (ho : ccCompute a xyz index .init P T dR knn dknn = .ok o) (f : Status)
    (hf : f = .error_p_overflow ∨ f = .error_t_overflow ∨ f = .error_infinite_boundary)
    (hget : o.s.state.get f = true) : o.knn = knn ∧ tmpnnRow o.knn = knn := by
  have hk : o.knn = knn := by
    obtain ⟨o', p, h1, -, h2⟩ := cell_res h State.get_init
    rw [ho] at h1; cases h1
    rcases h2.res with ⟨h3, h4⟩ | ⟨h3, -, h4 | h4, -⟩
    · exact h4
    · rw [h4] at hget; rcases hf with rfl | rfl | rfl <;> simp at hget
    · rw [h4] at hget; simp at hget
  refine ⟨hk, ?_⟩
  have := takeWhile_append_replicate (CCPre.ne_undef h.pre.ctx) 0
  rw [List.replicate_zero, List.append_nil] at this
  rw [hk, this]

/-- C31: the row copied to the result is an order-preserving sub-list of the candidate list,
and the rest of the task's row is sentinels. -/
theorem C31_sublist {a : CCArgs} {xyz : List (Pt F)} {index : Int} {P : List (Plane F)}
    {T : List Tri} {dR : List Nat} {knn dknn : List Int} (h : CellInput a xyz index P T dR knn dknn)
    {o : CCOut F} (ho : ccCompute a xyz index .init P T dR knn dknn = .ok o) :
    (tmpnnRow o.knn).Sublist knn ∧ kUndefined ∉ tmpnnRow o.knn ∧ (tmpnnRow o.knn).length ≤ a.k ∧
      o.knn = tmpnnRow o.knn ++ List.replicate (a.k - (tmpnnRow o.knn).length) kUndefined := by
  obtain ⟨o', p, h1, -, h2⟩ := cell_res h State.get_init
  rw [ho] at h1; cases h1
  have hne := CCPre.ne_undef h.pre.ctx
  suffices H : ∃ l : List Int, l.Sublist knn ∧ o.knn = l ++ List.replicate (a.k - l.length) kUndefined by
    obtain ⟨l, l1, l2⟩ := H
    have hl : ∀ v ∈ l, v ≠ kUndefined := fun v hv => hne v (l1.subset hv)
    have e : tmpnnRow o.knn = l := by rw [l2, takeWhile_append_replicate hl]
    rw [e]
    exact ⟨l1, fun hu => hl _ hu rfl, by rw [← h.klen]; exact l1.length_le, l2⟩
  rcases h2.res with ⟨h3, h4⟩ | ⟨h3, -, -, h4⟩
  · exact ⟨knn, List.Sublist.refl _, by rw [h4, h.klen]; simp⟩
  · exact ⟨_, selected_sublist _ _ _, h4⟩

/-! ### C20 -/

theorem adj_mem {n : Nat} {T S : List Tri} (hv : ValidTris n T) (hs : ∀ t ∈ S, t ∈ T)
    (hc : ClosedTris S) {t u : Tri} (ht : t ∈ S) (hu : u ∈ T) {e : Nat × Nat} (he : e ∈ t.edges)
    (he' : (e.2, e.1) ∈ u.edges) : u ∈ S := by
  obtain ⟨u', h1, h2⟩ := mem_triEdges.mp (hc e (mem_triEdges.mpr ⟨t, ht, he⟩))
  rw [hv.tri_unique hu (hs u' h1) he' h2]; exact h1

/-- the box is a closed connected surface -/
theorem tInit_surf : Surf 6 tInit := by
  refine ⟨tInit_valid, by unfold ClosedTris; decide, ?_⟩
  intro S hS hsub hcl
  have adj : ∀ t u : Tri, u ∈ tInit → (∃ e ∈ t.edges, (e.2, e.1) ∈ u.edges) → t ∈ S → u ∈ S := by
    rintro t u hu ⟨e, h1, h2⟩ ht
    exact adj_mem tInit_valid hsub hcl ht hu h1 h2
  have iffs : ∀ t u : Tri, t ∈ tInit → u ∈ tInit → (∃ e ∈ t.edges, (e.2, e.1) ∈ u.edges) →
      (∃ e ∈ u.edges, (e.2, e.1) ∈ t.edges) → (t ∈ S ↔ u ∈ S) :=
    fun t u ht hu h1 h2 => ⟨adj t u hu h1, adj u t ht h2⟩
  have h1 := iffs ⟨2,5,0⟩ ⟨5,3,0⟩ (by decide) (by decide) (by decide) (by decide)
  have h2 := iffs ⟨2,5,0⟩ ⟨1,5,2⟩ (by decide) (by decide) (by decide) (by decide)
  have h3 := iffs ⟨2,5,0⟩ ⟨4,2,0⟩ (by decide) (by decide) (by decide) (by decide)
  have h4 := iffs ⟨5,3,0⟩ ⟨5,1,3⟩ (by decide) (by decide) (by decide) (by decide)
  have h5 := iffs ⟨4,2,0⟩ ⟨4,0,3⟩ (by decide) (by decide) (by decide) (by decide)
  have h6 := iffs ⟨4,2,0⟩ ⟨2,4,1⟩ (by decide) (by decide) (by decide) (by decide)
  have h7 := iffs ⟨2,4,1⟩ ⟨4,3,1⟩ (by decide) (by decide) (by decide) (by decide)
  obtain ⟨t, ht⟩ := List.exists_mem_of_ne_nil S hS
  have := hsub t ht
  intro u hu
  simp only [tInit, List.mem_cons, List.not_mem_nil, or_false] at this hu
  have all : (⟨2,5,0⟩ : Tri) ∈ S := by
    rcases this with rfl | rfl | rfl | rfl | rfl | rfl | rfl | rfl <;> simp_all
  rcases hu with rfl | rfl | rfl | rfl | rfl | rfl | rfl | rfl <;> simp_all

/-- states after `nb` neighbours; the flag tells that the loop was left by `break` -/
inductive CellReach (a : CCArgs) (xyz : List (Pt F)) (knn : List Int) (p : Pt F) (s0 : CCState F) :
    Nat → Bool → CCState F → Prop
  | init : CellReach a xyz knn p s0 0 false s0
  | next {nb s s'} : CellReach a xyz knn p s0 nb false s → nb < a.k →
      ccStep a xyz knn p nb s = .ok (.next s') → CellReach a xyz knn p s0 (nb + 1) false s'
  | brk {nb s s'} : CellReach a xyz knn p s0 nb false s → nb < a.k →
      ccStep a xyz knn p nb s = .ok (.brk s') → CellReach a xyz knn p s0 (nb + 1) true s'

/-- what `ccStep` does to a closed connected surface of which a vertex survives -/
theorem ccStep_surf {a : CCArgs} {xyz : List (Pt F)} {knn : List Int} {p : Pt F}
    (hc : Ctx a xyz knn) {nb : Nat} {s s' : CCState F} (hnb : nb < a.k) (hi : CCInv a s)
    (hs : Surf s.psize (s.T.take s.tsize))
    (hcut : ∃ t ∈ s.T.take s.tsize, isCut s.P (bisect (candPt xyz knn nb) p) t = false)
    (hstep : ccStep a xyz knn p nb s = .ok (.next s') ∨ ccStep a xyz knn p nb s = .ok (.brk s')) :
    Surf s'.psize (s'.T.take s'.tsize) := by
  obtain ⟨qi, q, hq, hq'⟩ := hc.ids nb hnb
  rw [candPt_eq hq hq'] at hcut
  obtain ⟨K, R, sr, vs, o, h1, h2, h3, h4, h5, h6, h7⟩ := ccStep_spec (p := p) hc.pm hi hnb hq hq'
  rw [h1] at hstep
  have ho : o = .next s' ∨ o = .brk s' := by
    rcases hstep with h | h
    · left; injection h
    · right; injection h
  have hK : K ≠ [] := by
    obtain ⟨t, ht, hf⟩ := hcut
    rintro rfl
    rw [← h2.mem_iff, List.nil_append] at ht
    rw [h4 t ht] at hf; cases hf
  have fin : ∀ s1 : CCState F, ccFinish p q sr s1 = .next s' ∨ ccFinish p q sr s1 = .brk s' →
      s'.psize = s1.psize ∧ s'.T = s1.T ∧ s'.tsize = s1.tsize := by
    intro s1 h
    rw [ccFinish_eq] at h
    split at h
    · rcases h with h | h <;> cases h
      exact ⟨rfl, rfl, rfl⟩
    · rcases h with h | h <;> cases h
      exact ⟨rfl, rfl, rfl⟩
  cases h7 with
  | keep T hR hT hK' =>
    subst hR
    obtain ⟨e1, e2, e3⟩ := fin _ ho
    rw [e1, e2, e3]
    simp only
    rw [hK']; rw [List.append_nil] at h2
    exact hs.perm h2
  | poverflow T ts hR hp hT => rcases ho with h | h <;> cases h
  | infinite T ts dR M Q L hR hp hT hd hs => rcases ho with h | h <;> cases h
  | toverflow T ts dR L hR hp hT hd hL ho' => rcases ho with h | h <;> cases h
  | clip T dR L N hR hp hT hd hL ho' hN hT' =>
    obtain ⟨e1, e2, e3⟩ := fin _ ho
    rw [e1, e2, e3]
    simp only
    rw [hT']
    exact surf_step hs h2 hR hK hL hN

/-- the invariants of the loop hold in every reachable state -/
theorem CellReach.inv {a : CCArgs} {xyz : List (Pt F)} {knn : List Int} {p : Pt F} {s0 : CCState F}
    {dk0 : List Int} (hc : Ctx a xyz knn) (h0 : CCInv a s0) (h1 : Hist xyz knn p dk0 0 s0 [])
    (h2 : Clear s0.state) {nb : Nat} {b : Bool} {s : CCState F} (hr : CellReach a xyz knn p s0 nb b s) :
    CCInv a s ∧ (∃ js, Hist xyz knn p dk0 nb s js) ∧ (b = false → Clear s.state) ∧ nb ≤ a.k := by
  induction hr with
  | init => exact ⟨h0, ⟨[], h1⟩, fun _ => h2, Nat.zero_le _⟩
  | next hr hnb hs ih =>
    obtain ⟨j0, ⟨js, j1⟩, j2, -⟩ := ih
    obtain ⟨o, o1, o2, -, -⟩ := ccStep_inv hc hnb j0 j1 (j2 rfl)
    rw [hs] at o1; cases o1
    obtain ⟨i1, i2, i3⟩ := o2 _ rfl
    exact ⟨i1, i2, fun _ => i3, hnb⟩
  | brk hr hnb hs ih =>
    obtain ⟨j0, ⟨js, j1⟩, j2, -⟩ := ih
    obtain ⟨o, o1, -, o2, -⟩ := ccStep_inv hc hnb j0 j1 (j2 rfl)
    rw [hs] at o1; cases o1
    obtain ⟨i1, i2, i3⟩ := o2 _ rfl
    exact ⟨i1, i2, fun h => (by cases h), hnb⟩

/-- C20: in every state between two neighbours the vertex triples form a closed connected
oriented surface — every directed edge occurs once, and with its reverse — as long as no
bisector removes *all* vertices of the cell.  Holds for any arithmetic; in exact arithmetic the
condition always holds, see `C20_exact`. -/
theorem C20_closed_surface {a : CCArgs} {xyz : List (Pt F)} {index : Int} {P : List (Plane F)}
    {T : List Tri} {dR : List Nat} {knn dknn : List Int} (h : CellInput a xyz index P T dR knn dknn)
    {p : Pt F} {s0 : CCState F} (hs0 : ccInit .init P T dR dknn = .ok s0)
    (hcut : ∀ nb s, CellReach a xyz knn p s0 nb false s → nb < a.k →
      ∃ t ∈ s.T.take s.tsize, isCut s.P (bisect (candPt xyz knn nb) p) t = false)
    {nb : Nat} {b : Bool} {s : CCState F} (hr : CellReach a xyz knn p s0 nb b s) :
    ValidTris s.psize (s.T.take s.tsize) ∧ ClosedTris (s.T.take s.tsize) ∧
      ∀ S, S ≠ [] → (∀ t ∈ S, t ∈ s.T.take s.tsize) → ClosedTris S →
        ∀ t ∈ s.T.take s.tsize, t ∈ S := by
  obtain ⟨s0', i1, i2, i3, i4, i5, i6⟩ := ccInit_spec .init xyz knn p h.plen h.tlen h.dlen h.dklen
    h.pm6 h.tm8
  rw [hs0] at i1; cases i1
  have hinv := fun {nb b s} (hr : CellReach a xyz knn p s0 nb b s) =>
    hr.inv h.pre.ctx i2 i3 (by rw [i4]; exact State.get_init)
  suffices H : Surf s.psize (s.T.take s.tsize) from ⟨H.valid, H.closed, H.irred⟩
  induction hr with
  | init => rw [i5, i6]; exact tInit_surf
  | next hr hnb hs ih =>
    exact ccStep_surf h.pre.ctx hnb (hinv hr).1 ih (hcut _ _ hr hnb) (Or.inl hs)
  | brk hr hnb hs ih =>
    exact ccStep_surf h.pre.ctx hnb (hinv hr).1 ih (hcut _ _ hr hnb) (Or.inr hs)

/-! ### a concrete cell -/

/-- two points, exact rational arithmetic, smallest buffers that suffice -/
def cellXyz : List (Pt ℚ) := [⟨1/4, 1/2, 1/2⟩, ⟨3/4, 1/2, 1/2⟩]

def cellArgs : CCArgs := ⟨1, 7, 12⟩

theorem cell_example : CellInput cellArgs cellXyz 0 (List.replicate 7 ⟨5, 5, 5, 5⟩)
    (List.replicate 12 ⟨9, 9, 9⟩) (List.replicate 7 3) [1] [kUndefined] := by
  constructor <;> simp [cellArgs, cellXyz]

/-- the cell of the first point has the second point as neighbour -/
example : (ccCompute cellArgs cellXyz 0 .init (List.replicate 7 ⟨5, 5, 5, 5⟩)
    (List.replicate 12 ⟨9, 9, 9⟩) (List.replicate 7 3) [1] [kUndefined]).map
      (fun o => (o.knn, o.s.psize, o.s.tsize, o.s.state)) = .ok ([1], 7, 8, .init) := by
  decide +kernel

/-- one plane less: plane overflow, and the candidate list is returned -/
example : (ccCompute ⟨1, 6, 12⟩ cellXyz 0 .init (List.replicate 6 ⟨5, 5, 5, 5⟩)
    (List.replicate 12 ⟨9, 9, 9⟩) (List.replicate 6 3) [1] [kUndefined]).map
      (fun o => (o.knn, o.s.state)) = .ok ([1], State.init.setTrue .error_p_overflow) := by
  decide +kernel

end Votess
