import Verif.Lemmas.ChanEval
import Verif.Lemmas.ParamOnly

set_option linter.unusedSimpArgs false

/-!
# Splitting a parameter vector over channels and templates; writing parameters
-/

namespace TF

open Classical Spec

noncomputable section

theorem computeIndices_eq {procs outer : List String} (h : ∀ p ∈ procs, p ∈ outer) :
    computeIndices procs outer = .ok (procs.map outer.idxOf) := by
  induction procs with
  | nil => rfl
  | cons p ps ih =>
    simp only [computeIndices, if_pos (h p (by simp)), ih (fun q hq => h q (by simp [hq])), List.map_cons]

theorem takeIdx_eq (v : Vec) {is : List ℕ} (h : ∀ i ∈ is, i < v.length) :
    takeIdx v is = .ok (is.map fun i => v.getD i 0) := by
  induction is with
  | nil => rfl
  | cons i is ih =>
    have hi : v[i]? = some (v.getD i 0) := by
      simp [List.getElem?_eq_getElem (h i (by simp))]
    simp only [takeIdx, hi, ih (fun q hq => h q (by simp [hq])), List.map_cons]

/-- consecutive pieces of the given sizes -/
def blocks {α : Type} : List ℕ → List α → List (List α)
  | [], _ => []
  | n :: ns, l => l.take n :: blocks ns (l.drop n)

theorem blocks_length {α : Type} (ns : List ℕ) : ∀ l : List α, (blocks ns l).length = ns.length := by
  induction ns with
  | nil => intro l; rfl
  | cons n ns ih => intro l; simp [blocks, ih]

theorem blocks_flatten {α : Type} (ns : List ℕ) : ∀ l : List α, l.length = ns.sum → (blocks ns l).flatten = l := by
  induction ns with
  | nil => intro l h; simp at h; simp [blocks, h]
  | cons n ns ih =>
    intro l h
    simp only [blocks, List.flatten_cons]
    rw [ih _ (by simp at h ⊢; omega), List.take_append_drop]

theorem blocks_get {α : Type} (ns : List ℕ) : ∀ (l : List α) (k : ℕ) (hk : k < ns.length),
    (blocks ns l)[k]'(by rw [blocks_length]; exact hk) = (l.drop (ns.take k).sum).take ns[k] := by
  induction ns with
  | nil => intro l k hk; simp at hk
  | cons n ns ih =>
    intro l k hk
    cases k with
    | zero => simp [blocks]
    | succ k =>
      simp only [blocks, List.getElem_cons_succ, List.take_succ_cons, List.sum_cons]
      rw [ih _ _ (by simpa using hk), List.drop_drop]

theorem splitIdxFrom_blocks {α : Type} (ns : List ℕ) : ∀ (n acc : ℕ) (a : List α),
    a.length = acc + n + ns.sum →
    splitIdxFrom a acc (cumsumFrom acc (n :: ns)).dropLast = blocks (n :: ns) (a.drop acc) := by
  induction ns with
  | nil =>
    intro n acc a h
    simp only [cumsumFrom, List.dropLast_singleton, splitIdxFrom, blocks]
    rw [List.take_of_length_le]
    simp at h ⊢; omega
  | cons k ns ih =>
    intro n acc a h
    have e : (cumsumFrom acc (n :: k :: ns)).dropLast =
        (acc + n) :: (cumsumFrom (acc + n) (k :: ns)).dropLast := by
      simp only [cumsumFrom, List.dropLast_cons_cons]
    rw [e]
    simp only [splitIdxFrom]
    rw [ih k (acc + n) a (by simp at h ⊢; omega)]
    simp only [blocks, List.drop_drop, List.cons.injEq]
    refine ⟨?_, trivial⟩
    rw [List.drop_take]
    congr 1
    omega

theorem splitIdx_blocks {α : Type} {ns : List ℕ} (hne : ns ≠ []) {a : List α} (h : a.length = ns.sum) :
    splitIdx a (cumsum ns).dropLast = blocks ns a := by
  cases ns with
  | nil => exact absurd rfl hne
  | cons n ns =>
    have := splitIdxFrom_blocks ns n 0 a (by simp at h ⊢; omega)
    rw [List.drop_zero] at this
    exact this

/-- the yields of the channel's processes -/
def chanYields (w : World) (m : Mct) (x : Vec) (c : ℕ) : Vec :=
  (w.chans c).procs.map fun p => x.getD (m.processes.idxOf p) 0

theorem yieldsPure_eq (w : World) (procs : List String) (y : Vec) (hy : procs.length ≤ y.length) (cs : List ℕ)
    (h : ∀ c ∈ cs, ∀ p ∈ (w.chans c).procs, p ∈ procs) :
    yieldsPure w procs y cs = .ok (cs.map fun c => (w.chans c).procs.map fun p => y.getD (procs.idxOf p) 0) := by
  induction cs with
  | nil => rfl
  | cons c cs ih =>
    have h1 := computeIndices_eq (h c (by simp))
    have h2 : takeIdx y ((w.chans c).procs.map procs.idxOf) =
        .ok ((w.chans c).procs.map fun p => y.getD (procs.idxOf p) 0) := by
      rw [takeIdx_eq]
      · simp [List.map_map, Function.comp_def]
      · intro i hi
        obtain ⟨p, hp, rfl⟩ := List.mem_map.mp hi
        exact lt_of_lt_of_le (List.idxOf_lt_length_iff.mpr (h c (by simp) p hp)) hy
    simp only [yieldsPure, h1, h2, ih (fun d hd => h d (by simp [hd])), List.map_cons]

/-- sizes of the channels' nuisance blocks -/
def nuiSizes (w : World) (m : Mct) : List ℕ := m.chanIds.map fun c => (w.chans c).numNui

theorem perChannelPure_eq (w : World) (m : Mct) (x : Vec) (hne : m.channels ≠ [])
    (hsub : ∀ c ∈ m.chanIds, ∀ p ∈ (w.chans c).procs, p ∈ m.processes)
    (hx : x.length = m.numProcesses + m.numNui w) :
    perChannelPure w m x =
      .ok (m.chanIds.map (chanYields w m x), blocks (nuiSizes w m) (x.drop m.numProcesses)) := by
  have hl : (x.take m.numProcesses).length = m.processes.length := by
    rw [List.length_take, hx]; simp [Mct.numProcesses]
  have hy := yieldsPure_eq w m.processes (x.take m.numProcesses) hl.ge m.chanIds hsub
  have hn : (x.take (m.numNui w + m.numProcesses)).drop m.numProcesses = x.drop m.numProcesses := by
    rw [List.take_of_length_le (by omega)]
  have hs : splitIdx (x.drop m.numProcesses) (cumsum (nuiSizes w m)).dropLast =
      blocks (nuiSizes w m) (x.drop m.numProcesses) := by
    apply splitIdx_blocks
    · simp [nuiSizes, Mct.chanIds, hne]
    · rw [List.length_drop, hx]; simp [nuiSizes, Mct.numNui]
  unfold perChannelPure
  simp only [hy, hn]
  rw [show m.chanIds.map (fun c => (w.chans c).numNui) = nuiSizes w m from rfl, hs]
  congr 2
  apply List.map_congr_left
  intro c hc
  unfold chanYields
  apply List.map_congr_left
  intro p hp
  have hlt : m.processes.idxOf p < m.numProcesses := List.idxOf_lt_length_iff.mpr (hsub c hc p hp)
  simp only [List.getD_eq_getElem?_getD, List.getElem?_take, hlt, if_true]

/-! ### writing parameters -/

/-- overwrite the parameters of template objects one after another -/
def World.assign (w : World) : List (ℕ × Vec) → World
  | [] => w
  | q :: qs => (w.setTmpl q.1 { w.tmpls q.1 with params := q.2 }).assign qs

theorem assign_append (w : World) (a b : List (ℕ × Vec)) : w.assign (a ++ b) = (w.assign a).assign b := by
  induction a generalizing w with
  | nil => rfl
  | cons q a ih => simp only [List.cons_append, World.assign]; exact ih _

theorem assign_paramOnly (L : List (ℕ × Vec)) : ∀ w : World, ParamOnly w (w.assign L) := by
  induction L with
  | nil => intro w; exact ParamOnly.refl w
  | cons q L ih =>
    intro w
    exact (setTmpl_paramOnly w q.1 _ q.2 rfl).trans (ih _)

theorem assign_other (L : List (ℕ × Vec)) (i : ℕ) : ∀ w : World, i ∉ L.map (·.1) →
    (w.assign L).tmpls i = w.tmpls i := by
  induction L with
  | nil => intro w _; rfl
  | cons q L ih =>
    intro w h
    simp only [List.map_cons, List.mem_cons, not_or] at h
    simp only [World.assign]
    rw [ih _ h.2]
    simp [World.setTmpl, Function.update_of_ne h.1]

theorem assign_params (L : List (ℕ × Vec)) : ∀ w : World, (L.map (·.1)).Nodup → ∀ q ∈ L,
    (w.assign L).tmpls q.1 = { w.tmpls q.1 with params := q.2 } := by
  induction L with
  | nil => intro w _ q hq; simp at hq
  | cons r L ih =>
    intro w hn q hq
    simp only [List.map_cons, List.nodup_cons] at hn
    simp only [World.assign]
    rcases List.mem_cons.mp hq with rfl | hq
    · rw [assign_other _ _ _ hn.1]
      simp [World.setTmpl]
    · rw [ih _ hn.2 q hq]
      have : q.1 ≠ r.1 := by
        intro e; apply hn.1; rw [← e]; exact List.mem_map_of_mem hq
      simp [World.setTmpl, Function.update_of_ne this]

theorem ParamOnly.numBins {a b : World} (h : ParamOnly a b) (i : ℕ) : (b.tmpls i).numBins = (a.tmpls i).numBins := by
  obtain ⟨f, rfl⟩ := h; rfl

/-- the assignments of one channel: yield times efficiency followed by the nuisance block -/
def asgLoop : List (String × ℕ) → List (String × Fl) → Vec → List Vec → List (ℕ × Vec)
  | t :: ts, e :: es, y :: ys, n :: ns => (t.2, (y * e.2) :: n) :: asgLoop ts es ys ns
  | _, _, _, _ => []

theorem asgLoop_ids (ts : List (String × ℕ)) : ∀ (es : List (String × Fl)) (ys : Vec) (ns : List Vec),
    es.length = ts.length → ys.length = ts.length → ns.length = ts.length →
    (asgLoop ts es ys ns).map (·.1) = ts.map (·.2) := by
  induction ts with
  | nil => intro es ys ns _ _ _; cases es <;> cases ys <;> cases ns <;> rfl
  | cons t ts ih =>
    intro es ys ns h1 h2 h3
    obtain ⟨e, es, rfl⟩ := List.exists_cons_of_length_eq_add_one (h1.trans (List.length_cons))
    obtain ⟨y, ys, rfl⟩ := List.exists_cons_of_length_eq_add_one (h2.trans (List.length_cons))
    obtain ⟨n, ns, rfl⟩ := List.exists_cons_of_length_eq_add_one (h3.trans (List.length_cons))
    simp only [asgLoop, List.map_cons]
    rw [ih es ys ns (by simpa using h1) (by simpa using h2) (by simpa using h3)]

theorem asgLoop_get (ts : List (String × ℕ)) : ∀ (es : List (String × Fl)) (ys : Vec) (ns : List Vec) (j : ℕ)
    (hj : j < ts.length) (h1 : j < es.length) (h2 : j < ys.length) (h3 : j < ns.length),
    (ts[j].2, (ys[j] * es[j].2) :: ns[j]) ∈ asgLoop ts es ys ns := by
  induction ts with
  | nil => intro es ys ns j hj; simp at hj
  | cons t ts ih =>
    intro es ys ns j hj h1 h2 h3
    cases es with
    | nil => simp at h1
    | cons e es => cases ys with
      | nil => simp at h2
      | cons y ys => cases ns with
        | nil => simp at h3
        | cons n ns =>
          simp only [asgLoop, List.mem_cons]
          cases j with
          | zero => left; rfl
          | succ j =>
            right
            exact ih es ys ns j (by simpa using hj) (by simpa using h1) (by simpa using h2) (by simpa using h3)

theorem updateLoop_eq (ts : List (String × ℕ)) : ∀ (w : World) (es : List (String × Fl)) (ys : Vec) (ns : List Vec)
    (N : ℕ), es.length = ts.length → ys.length = ts.length → ns.length = ts.length →
    (∀ t ∈ ts, (w.tmpls t.2).numBins = N) → (∀ n ∈ ns, n.length = N) →
    w.updateLoop ts es (ys.map fun y => [y]) ns = (.ok (), w.assign (asgLoop ts es ys ns)) := by
  induction ts with
  | nil => intro w es ys ns N _ _ _ _ _; cases es <;> cases ys <;> cases ns <;> rfl
  | cons t ts ih =>
    intro w es ys ns N h1 h2 h3 ht hn
    obtain ⟨e, es, rfl⟩ := List.exists_cons_of_length_eq_add_one (h1.trans (List.length_cons))
    obtain ⟨y, ys, rfl⟩ := List.exists_cons_of_length_eq_add_one (h2.trans (List.length_cons))
    obtain ⟨n, ns, rfl⟩ := List.exists_cons_of_length_eq_add_one (h3.trans (List.length_cons))
    have hu : w.updateTmpl t.2 e.2 [y] n =
        (.ok (), w.setTmpl t.2 { w.tmpls t.2 with params := (y * e.2) :: n }) := by
      simp only [World.updateTmpl, List.map_cons, List.map_nil, Template.setYield, Template.setNui, List.headD_cons]
      rw [if_neg]
      rw [hn n (by simp)]
      simp [ht t (by simp)]
    simp only [List.map_cons, World.updateLoop, hu, asgLoop, World.assign]
    apply ih _ es ys ns N (by simpa using h1) (by simpa using h2) (by simpa using h3)
    · intro q hq
      rw [(setTmpl_paramOnly w t.2 _ _ rfl).numBins]
      exact ht q (by simp [hq])
    · intro q hq; exact hn q (by simp [hq])

theorem splitEq_singles (y : Vec) (h : y ≠ []) : splitEq y y.length = .ok (y.map fun a => [a]) := by
  have := splitEq_flatten 1 (y.map fun a => [a]) (by simp) (by simpa using h)
  rw [List.length_map] at this
  rw [← this]
  congr 1
  induction y with
  | nil => rfl
  | cons a y ih =>
    by_cases hy : y = []
    · subst hy; rfl
    · simp only [List.map_cons, List.flatten_cons, List.singleton_append]
      rw [← ih hy]
      have := splitEq_flatten 1 (y.map fun a => [a]) (by simp) (by simpa using hy)
      rw [List.length_map] at this
      exact this

/-- `np.split(l, k)` for a list of `k * N` elements -/
theorem splitEq_blocks {α : Type} {l : List α} {k N : ℕ} (hk : 0 < k) (h : l.length = k * N) :
    splitEq l k = .ok (blocks (List.replicate k N) l) := by
  have hl : l.length = (List.replicate k N).sum := by rw [List.sum_replicate, smul_eq_mul, h]
  have hb : ∀ b ∈ blocks (List.replicate k N) l, b.length = N := by
    intro b hb
    obtain ⟨j, hj, rfl⟩ := List.mem_iff_getElem.mp hb
    rw [blocks_length, List.length_replicate] at hj
    rw [blocks_get _ _ _ (by simpa using hj)]
    simp only [List.take_replicate, List.sum_replicate, smul_eq_mul, List.getElem_replicate, List.length_take,
      List.length_drop, h]
    have : min j k = j := min_eq_left hj.le
    rw [this]
    have h2 : (j + 1) * N ≤ k * N := Nat.mul_le_mul_right N hj
    have h3 : (j + 1) * N = j * N + N := by ring
    omega
  have := splitEq_flatten N (blocks (List.replicate k N) l) hb (by
    intro e; have := congrArg List.length e
    rw [blocks_length, List.length_replicate] at this; simp at this; omega)
  rwa [blocks_flatten _ _ hl, blocks_length, List.length_replicate] at this

/-- assignments made by `Channel.update_parameters` -/
def asgChan (w : World) (c : ℕ) (ys nui : Vec) : List (ℕ × Vec) :=
  asgLoop (w.chans c).templates (w.chans c).effs ys
    (blocks (List.replicate (w.chans c).numTemplates (w.chans c).numBins) nui)

theorem updateChannel_eq (w : World) (c : ℕ) (ys nui : Vec) (hK : 0 < (w.chans c).numTemplates)
    (hl : (w.chans c).templates.length = (w.chans c).numTemplates) (he : (w.chans c).effs.length = (w.chans c).templates.length)
    (hy : ys.length = (w.chans c).numTemplates) (hn : nui.length = (w.chans c).numNui)
    (ht : ∀ t ∈ (w.chans c).templates, (w.tmpls t.2).numBins = (w.chans c).numBins) :
    w.updateChannel c ys nui = (.ok (), w.assign (asgChan w c ys nui)) := by
  have h1 : splitEq ys (w.chans c).numTemplates = .ok (ys.map fun a => [a]) := by
    rw [← hy]; apply splitEq_singles
    intro e; rw [e] at hy; simp at hy; omega
  have h2 := splitEq_blocks hK hn
  unfold World.updateChannel
  simp only [h1, h2]
  apply updateLoop_eq _ _ _ _ _ (w.chans c).numBins he (hy.trans hl.symm)
  · rw [blocks_length, List.length_replicate]; exact hl.symm
  · exact ht
  · intro b hb
    obtain ⟨j, hj, rfl⟩ := List.mem_iff_getElem.mp hb
    rw [blocks_length, List.length_replicate] at hj
    rw [blocks_get _ _ _ (by simpa using hj)]
    simp only [List.take_replicate, List.sum_replicate, smul_eq_mul, List.getElem_replicate, List.length_take,
      List.length_drop, hn, Channel.numNui]
    rw [min_eq_left hj.le]
    have h2 : (j + 1) * (w.chans c).numBins ≤ (w.chans c).numTemplates * (w.chans c).numBins :=
      Nat.mul_le_mul_right _ hj
    have h3 : (j + 1) * (w.chans c).numBins = j * (w.chans c).numBins + (w.chans c).numBins := by ring
    omega

theorem asgChan_paramOnly {w w' : World} (h : ParamOnly w w') (c : ℕ) (y n : Vec) :
    asgChan w' c y n = asgChan w c y n := by
  unfold asgChan; rw [h.chans]

/-- assignments of all channels -/
def asgAll (w : World) : List ℕ → List Vec → List Vec → List (ℕ × Vec)
  | c :: cs, y :: ys, n :: ns => asgChan w c y n ++ asgAll w cs ys ns
  | _, _, _ => []

theorem asgAll_paramOnly {w w' : World} (h : ParamOnly w w') (cs : List ℕ) : ∀ ys ns : List Vec,
    asgAll w' cs ys ns = asgAll w cs ys ns := by
  induction cs with
  | nil => intro ys ns; cases ys <;> cases ns <;> rfl
  | cons c cs ih =>
    intro ys ns
    cases ys with
    | nil => rfl
    | cons y ys => cases ns with
      | nil => rfl
      | cons n ns => simp only [asgAll, asgChan_paramOnly h, ih]

/-- what `update_parameters` of one channel needs -/
def ChanReady (w : World) (c : ℕ) (ys nui : Vec) : Prop :=
  0 < (w.chans c).numTemplates ∧ (w.chans c).templates.length = (w.chans c).numTemplates ∧
    (w.chans c).effs.length = (w.chans c).templates.length ∧
    ys.length = (w.chans c).numTemplates ∧ nui.length = (w.chans c).numNui ∧
    ∀ t ∈ (w.chans c).templates, (w.tmpls t.2).numBins = (w.chans c).numBins

theorem ChanReady.param {w w' : World} (h : ParamOnly w w') {c : ℕ} {y n : Vec} (hr : ChanReady w c y n) :
    ChanReady w' c y n := by
  obtain ⟨a, l, b, d, e, f⟩ := hr
  unfold ChanReady
  rw [h.chans]
  exact ⟨a, l, b, d, e, fun t ht => by rw [h.numBins]; exact f t ht⟩

theorem updateChannels_eq (cs : List ℕ) : ∀ (w : World) (ys ns : List Vec), ys.length = cs.length →
    ns.length = cs.length → (∀ (k : ℕ) (h1 : k < cs.length) (h2 : k < ys.length) (h3 : k < ns.length),
      ChanReady w cs[k] ys[k] ns[k]) →
    w.updateChannels cs ys ns = (.ok (), w.assign (asgAll w cs ys ns)) := by
  induction cs with
  | nil => intro w ys ns _ _ _; cases ys <;> cases ns <;> rfl
  | cons c cs ih =>
    intro w ys ns h1 h2 hr
    obtain ⟨y, ys, rfl⟩ := List.exists_cons_of_length_eq_add_one (h1.trans (List.length_cons))
    obtain ⟨n, ns, rfl⟩ := List.exists_cons_of_length_eq_add_one (h2.trans (List.length_cons))
    obtain ⟨a, l, b, d, e, f⟩ := hr 0 (by simp) (by simp) (by simp)
    have hu := updateChannel_eq w c y n a l b d e f
    have hp := assign_paramOnly (asgChan w c y n) w
    simp only [World.updateChannels, hu, asgAll, assign_append]
    rw [ih _ ys ns (by simpa using h1) (by simpa using h2), asgAll_paramOnly hp]
    intro k k1 k2 k3
    exact (hr (k + 1) (by simpa using k1) (by simpa using k2) (by simpa using k3)).param hp

theorem asgAll_ids (w : World) (cs : List ℕ) : ∀ (ys ns : List Vec), ys.length = cs.length →
    ns.length = cs.length → (∀ (k : ℕ) (h1 : k < cs.length) (h2 : k < ys.length) (h3 : k < ns.length),
      ChanReady w cs[k] ys[k] ns[k]) →
    (asgAll w cs ys ns).map (·.1) = (cs.map fun c => (w.chans c).templates.map (·.2)).flatten := by
  induction cs with
  | nil => intro ys ns _ _ _; cases ys <;> cases ns <;> rfl
  | cons c cs ih =>
    intro ys ns h1 h2 hr
    obtain ⟨y, ys, rfl⟩ := List.exists_cons_of_length_eq_add_one (h1.trans (List.length_cons))
    obtain ⟨n, ns, rfl⟩ := List.exists_cons_of_length_eq_add_one (h2.trans (List.length_cons))
    obtain ⟨a, l, b, d, e, f⟩ := hr 0 (by simp) (by simp) (by simp)
    simp only [asgAll, List.map_append, List.map_cons, List.flatten_cons]
    rw [ih ys ns (by simpa using h1) (by simpa using h2) (fun k k1 k2 k3 =>
      hr (k + 1) (by simpa using k1) (by simpa using k2) (by simpa using k3))]
    congr 1
    apply asgLoop_ids _ _ _ _ b (d.trans l.symm)
    rw [blocks_length, List.length_replicate]; exact l.symm

theorem asgAll_mem (w : World) (cs : List ℕ) : ∀ (ys ns : List Vec) (k : ℕ) (h1 : k < cs.length)
    (h2 : k < ys.length) (h3 : k < ns.length) (q : ℕ × Vec), q ∈ asgChan w cs[k] ys[k] ns[k] →
    q ∈ asgAll w cs ys ns := by
  induction cs with
  | nil => intro ys ns k h1; simp at h1
  | cons c cs ih =>
    intro ys ns k h1 h2 h3 q hq
    cases ys with
    | nil => simp at h2
    | cons y ys => cases ns with
      | nil => simp at h3
      | cons n ns =>
        simp only [asgAll, List.mem_append]
        cases k with
        | zero => left; exact hq
        | succ k =>
          right
          exact ih ys ns k (by simpa using h1) (by simpa using h2) (by simpa using h3) q hq

end

end TF
