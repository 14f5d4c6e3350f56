import Verif.Lemmas.Frames
import Verif.Lemmas.Invariants

set_option linter.unusedSimpArgs false

/-!
# Coherent caches

A world is coherent when every memoised value is what the method would compute now.
-/

namespace TF

open Classical

noncomputable section

/-- Every memoised value of the three `lru_cache`s is the value the method would return now, and
every memoised channel exists. -/
structure Coherent (w : World) : Prop where
  idx : ∀ p ∈ w.idxCache.items, p.1.1 < w.nChans ∧
    computeIndices (w.chans p.1.1).procs p.1.2 = .ok p.2
  eff : ∀ p ∈ w.effCache.items, p.1 < w.nChans ∧ (w.chans p.1).effs.map (·.2) = p.2
  inv : ∀ p ∈ w.invCache.items, p.1 < w.nChans ∧
    blockDiag ((w.chanTmpls p.1).map (·.invCorr)) = p.2

/-- the same program state with empty caches: what a freshly started interpreter would have if the
current objects were created there -/
def World.clear (w : World) : World := { w with idxCache := ⟨[]⟩, effCache := ⟨[]⟩, invCache := ⟨[]⟩ }

theorem clear_coherent (w : World) : Coherent w.clear := by
  refine ⟨?_, ?_, ?_⟩ <;> simp [World.clear]

theorem clear_cacheOnly (w : World) : CacheOnly w w.clear := ⟨rfl, rfl, rfl, rfl, rfl, rfl⟩

/-- Two coherent worlds that differ in the caches only. -/
structure CohEq (a b : World) : Prop where
  left : Coherent a
  right : Coherent b
  eq : CacheOnly a b

theorem CohEq.refl {w : World} (h : Coherent w) : CohEq w w := ⟨h, h, CacheOnly.refl w⟩

theorem CohEq.clear {w : World} (h : Coherent w) : CohEq w w.clear :=
  ⟨h, clear_coherent w, clear_cacheOnly w⟩

theorem lru_call_mem {κ ν : Type} [DecidableEq κ] (c : Lru κ ν) (k : κ) (f : Except Err ν) :
    ∀ p ∈ (c.call k f).2.items, p ∈ c.items ∨ (p.1 = k ∧ f = .ok p.2) := by
  unfold Lru.call
  cases hd : dictGet c.items k with
  | some v =>
    intro p hp
    simp only [List.mem_cons, List.mem_filter] at hp
    rcases hp with rfl | hp
    · exact Or.inl (dictGet_mem hd)
    · exact Or.inl hp.1
  | none =>
    cases f with
    | error e => intro p hp; exact Or.inl hp
    | ok v =>
      intro p hp
      have := List.mem_of_mem_take hp
      rcases List.mem_cons.mp this with rfl | h
      · exact Or.inr ⟨rfl, rfl⟩
      · exact Or.inl h

theorem lru_call_val {κ ν : Type} [DecidableEq κ] (c : Lru κ ν) (k : κ) (f : Except Err ν)
    (h : ∀ p ∈ c.items, p.1 = k → f = .ok p.2) : (c.call k f).1 = f := by
  unfold Lru.call
  cases hd : dictGet c.items k with
  | some v => exact (h _ (dictGet_mem hd) rfl).symm
  | none => cases f <;> rfl

theorem processIndices_coh {w : World} (h : Coherent w) (c : ℕ) (o : List String) (hc : c < w.nChans) :
    (w.processIndices c o).1 = computeIndices (w.chans c).procs o ∧ Coherent (w.processIndices c o).2 := by
  constructor
  · exact lru_call_val _ _ _ (fun p hp hk => by
      have := (h.idx p hp).2
      rw [show p.1.1 = c from congrArg Prod.fst hk, show p.1.2 = o from congrArg Prod.snd hk] at this
      exact this)
  · refine ⟨?_, h.eff, h.inv⟩
    intro p hp
    rcases lru_call_mem _ _ _ p hp with hp | ⟨hk, hf⟩
    · exact h.idx p hp
    · rw [show p.1.1 = c from congrArg Prod.fst hk, show p.1.2 = o from congrArg Prod.snd hk]
      exact ⟨hc, hf⟩

theorem effArray_coh {w : World} (h : Coherent w) (c : ℕ) (hc : c < w.nChans) :
    (w.effArray c).1 = .ok ((w.chans c).effs.map (·.2)) ∧ Coherent (w.effArray c).2 := by
  constructor
  · exact lru_call_val _ _ _ (fun p hp hk => by
      have := (h.eff p hp).2
      rw [hk] at this; rw [this])
  · refine ⟨h.idx, ?_, h.inv⟩
    intro p hp
    rcases lru_call_mem _ _ _ p hp with hp | ⟨hk, hf⟩
    · exact h.eff p hp
    · rw [hk]; exact ⟨hc, Except.ok.inj hf⟩

theorem invCorrBlock_coh {w : World} (h : Coherent w) (c : ℕ) (hc : c < w.nChans) :
    (w.invCorrBlock c).1 = .ok (blockDiag ((w.chanTmpls c).map (·.invCorr))) ∧
    Coherent (w.invCorrBlock c).2 := by
  constructor
  · exact lru_call_val _ _ _ (fun p hp hk => by
      have := (h.inv p hp).2
      rw [hk] at this; rw [this])
  · refine ⟨h.idx, h.eff, ?_⟩
    intro p hp
    rcases lru_call_mem _ _ _ p hp with hp | ⟨hk, hf⟩
    · exact h.inv p hp
    · rw [hk]; exact ⟨hc, Except.ok.inj hf⟩

/-- the value of `_expected_evts_per_bin` when no stale value is served -/
def expectedPure (w : World) (c : ℕ) (y n : Vec) : Except Err Vec :=
  match bop (· * ·) y ((w.chans c).effs.map (·.2)) with
  | .error e => .error e
  | .ok v =>
    match w.chanFractions c n with
    | .error e => .error e
    | .ok F => vecMat v F

theorem expectedEvts_coh {w : World} (h : Coherent w) (c : ℕ) (hc : c < w.nChans) (y n : Vec) :
    (w.expectedEvts c y n).1 = expectedPure w c y n ∧ Coherent (w.expectedEvts c y n).2 := by
  obtain ⟨h1, h2⟩ := effArray_coh h c hc
  have h3 := effArray_frame w c
  unfold World.expectedEvts expectedPure
  generalize w.effArray c = r at h1 h2 h3 ⊢
  obtain ⟨r1, w1⟩ := r
  simp only at h1 h2 h3
  subst h1
  simp only
  cases bop (· * ·) y ((w.chans c).effs.map (·.2)) with
  | error e => exact ⟨rfl, h2⟩
  | ok v =>
    simp only [h3.chanFractions c n]
    cases w.chanFractions c n with
    | error e => exact ⟨rfl, h2⟩
    | ok F => exact ⟨rfl, h2⟩

/-- the value of `_gauss_term` when no stale value is served -/
def gaussPure (w : World) (c : ℕ) (n : Vec) : Except Err Fl :=
  match vecMat n (blockDiag ((w.chanTmpls c).map (·.invCorr))) with
  | .error e => .error e
  | .ok v =>
    match dot v n with
    | .error e => .error e
    | .ok q => .ok (Fl.fin (1 / 2) * q)

theorem gaussTerm_coh {w : World} (h : Coherent w) (c : ℕ) (hc : c < w.nChans) (n : Vec) :
    (w.gaussTerm c n).1 = gaussPure w c n ∧ Coherent (w.gaussTerm c n).2 := by
  obtain ⟨h1, h2⟩ := invCorrBlock_coh h c hc
  unfold World.gaussTerm gaussPure
  generalize w.invCorrBlock c = r at h1 h2 ⊢
  obtain ⟨r1, w1⟩ := r
  simp only at h1 h2
  subst h1
  simp only
  cases vecMat n (blockDiag ((w.chanTmpls c).map (·.invCorr))) with
  | error e => exact ⟨rfl, h2⟩
  | ok v =>
    simp only
    cases dot v n with
    | error e => exact ⟨rfl, h2⟩
    | ok q => exact ⟨rfl, h2⟩

/-- the value of `nll_contribution` when no stale value is served -/
def contribPure (w : World) (c : ℕ) (y n : Vec) : Except Err Fl :=
  match (w.chans c).hdata with
  | none => .error .attributeError
  | some hid =>
    match expectedPure w c y n with
    | .error e => .error e
    | .ok expd =>
      match poissonTerm (w.hists hid).counts.data expd with
      | .error e => .error e
      | .ok p =>
        match gaussPure w c n with
        | .error e => .error e
        | .ok g => .ok (p + g)

theorem CacheOnly.gaussPure {a b : World} (h : CacheOnly a b) (c : ℕ) (n : Vec) :
    gaussPure b c n = gaussPure a c n := by
  unfold TF.gaussPure; rw [h.chanTmpls c]

theorem CacheOnly.expectedPure {a b : World} (h : CacheOnly a b) (c : ℕ) (y n : Vec) :
    expectedPure b c y n = expectedPure a c y n := by
  unfold TF.expectedPure; rw [h.chans, h.chanFractions c n]

theorem CacheOnly.contribPure {a b : World} (h : CacheOnly a b) (c : ℕ) (y n : Vec) :
    contribPure b c y n = contribPure a c y n := by
  unfold TF.contribPure; rw [h.chans, h.hists, h.expectedPure, h.gaussPure]

theorem nllContribution_coh {w : World} (h : Coherent w) (c : ℕ) (hc : c < w.nChans) (y n : Vec) :
    (w.nllContribution c y n).1 = contribPure w c y n ∧ Coherent (w.nllContribution c y n).2 := by
  unfold World.nllContribution contribPure
  cases (w.chans c).hdata with
  | none => exact ⟨rfl, h⟩
  | some hid =>
    simp only
    obtain ⟨h1, h2⟩ := expectedEvts_coh h c hc y n
    have h3 := expectedEvts_frame w c y n
    generalize w.expectedEvts c y n = r at h1 h2 h3 ⊢
    obtain ⟨r1, w1⟩ := r
    simp only at h1 h2 h3
    subst h1
    cases expectedPure w c y n with
    | error e => exact ⟨rfl, h2⟩
    | ok expd =>
      simp only
      cases poissonTerm (w.hists hid).counts.data expd with
      | error e => exact ⟨rfl, h2⟩
      | ok p =>
        simp only
        obtain ⟨h4, h5⟩ := gaussTerm_coh h2 c (by rw [h3.nChans]; exact hc) n
        rw [h3.gaussPure] at h4
        generalize w1.gaussTerm c n = r at h4 h5 ⊢
        obtain ⟨r1, w2⟩ := r
        simp only at h4 h5
        subst h4
        cases gaussPure w c n with
        | error e => exact ⟨rfl, h5⟩
        | ok g => exact ⟨rfl, h5⟩

/-- sum of the channel contributions without caches -/
def channelsPure (w : World) : List ℕ → List Vec → List Vec → Except Err Fl
  | c :: cs, y :: ys, n :: ns =>
    match contribPure w c y n with
    | .error e => .error e
    | .ok v =>
      match channelsPure w cs ys ns with
      | .error e => .error e
      | .ok s => .ok (v + s)
  | _, _, _ => .ok 0

theorem CacheOnly.channelsPure {a b : World} (h : CacheOnly a b) (cs : List ℕ) :
    ∀ ys ns, channelsPure b cs ys ns = channelsPure a cs ys ns := by
  induction cs with
  | nil => intro ys ns; simp only [TF.channelsPure]
  | cons c cs ih =>
    intro ys ns
    cases ys with
    | nil => simp only [TF.channelsPure]
    | cons y ys =>
      cases ns with
      | nil => simp only [TF.channelsPure]
      | cons n ns => simp only [TF.channelsPure, h.contribPure, ih]

theorem nllChannels_coh (cs : List ℕ) : ∀ {w : World}, Coherent w → (∀ c ∈ cs, c < w.nChans) →
    ∀ ys ns, (w.nllChannels cs ys ns).1 = channelsPure w cs ys ns ∧
      Coherent (w.nllChannels cs ys ns).2 := by
  induction cs with
  | nil => intro w h _ ys ns; simp only [World.nllChannels, channelsPure]; exact ⟨trivial, h⟩
  | cons c cs ih =>
    intro w h hcs ys ns
    cases ys with
    | nil => simp only [World.nllChannels, channelsPure]; exact ⟨trivial, h⟩
    | cons y ys =>
      cases ns with
      | nil => simp only [World.nllChannels, channelsPure]; exact ⟨trivial, h⟩
      | cons n ns =>
        simp only [World.nllChannels, channelsPure]
        obtain ⟨h1, h2⟩ := nllContribution_coh h c (hcs c (by simp)) y n
        have h3 := nllContribution_frame w c y n
        generalize w.nllContribution c y n = r at h1 h2 h3 ⊢
        obtain ⟨r1, w1⟩ := r
        simp only at h1 h2 h3
        subst h1
        cases contribPure w c y n with
        | error e => exact ⟨rfl, h2⟩
        | ok v =>
          simp only
          obtain ⟨h4, h5⟩ := ih h2 (fun c' hc' => by rw [h3.nChans]; exact hcs c' (by simp [hc'])) ys ns
          rw [h3.channelsPure] at h4
          generalize w1.nllChannels cs ys ns = r at h4 h5 ⊢
          obtain ⟨r1, w2⟩ := r
          simp only at h4 h5
          subst h4
          cases channelsPure w cs ys ns with
          | error e => exact ⟨rfl, h5⟩
          | ok s => exact ⟨rfl, h5⟩

/-- yields of each channel without caches -/
def yieldsPure (w : World) (procs : List String) (yields : Vec) : List ℕ → Except Err (List Vec)
  | [] => .ok []
  | c :: cs =>
    match computeIndices (w.chans c).procs procs with
    | .error e => .error e
    | .ok idx =>
      match takeIdx yields idx with
      | .error e => .error e
      | .ok ys =>
        match yieldsPure w procs yields cs with
        | .error e => .error e
        | .ok l => .ok (ys :: l)

theorem CacheOnly.yieldsPure {a b : World} (h : CacheOnly a b) (procs : List String) (y : Vec)
    (cs : List ℕ) : yieldsPure b procs y cs = yieldsPure a procs y cs := by
  induction cs with
  | nil => rfl
  | cons c cs ih => simp only [TF.yieldsPure, h.chans, ih]

theorem channelYields_coh (procs : List String) (y : Vec) (cs : List ℕ) : ∀ {w : World}, Coherent w →
    (∀ c ∈ cs, c < w.nChans) → (w.channelYields procs y cs).1 = yieldsPure w procs y cs ∧
      Coherent (w.channelYields procs y cs).2 := by
  induction cs with
  | nil => intro w h _; exact ⟨rfl, h⟩
  | cons c cs ih =>
    intro w h hcs
    simp only [World.channelYields, yieldsPure]
    obtain ⟨h1, h2⟩ := processIndices_coh h c procs (hcs c (by simp))
    have h3 := processIndices_frame w c procs
    generalize w.processIndices c procs = r at h1 h2 h3 ⊢
    obtain ⟨r1, w1⟩ := r
    simp only at h1 h2 h3
    subst h1
    cases computeIndices (w.chans c).procs procs with
    | error e => exact ⟨rfl, h2⟩
    | ok idx =>
      simp only
      cases takeIdx y idx with
      | error e => exact ⟨rfl, h2⟩
      | ok ys =>
        simp only
        obtain ⟨h4, h5⟩ := ih h2 (fun c' hc' => by rw [h3.nChans]; exact hcs c' (by simp [hc']))
        rw [h3.yieldsPure] at h4
        generalize w1.channelYields procs y cs = r at h4 h5 ⊢
        obtain ⟨r1, w2⟩ := r
        simp only at h4 h5
        subst h4
        cases yieldsPure w procs y cs with
        | error e => exact ⟨rfl, h5⟩
        | ok s => exact ⟨rfl, h5⟩

/-- per-channel parameters without caches -/
def perChannelPure (w : World) (m : Mct) (x : Vec) : Except Err (List Vec × List Vec) :=
  match yieldsPure w m.processes (x.take m.numProcesses) m.chanIds with
  | .error e => .error e
  | .ok ys =>
    .ok (ys, splitIdx ((x.take (m.numNui w + m.numProcesses)).drop m.numProcesses)
      (cumsum (m.chanIds.map fun c => (w.chans c).numNui)).dropLast)

theorem perChannel_coh {w : World} (h : Coherent w) (m : Mct) (hcs : ∀ c ∈ m.chanIds, c < w.nChans)
    (x : Vec) : (m.perChannel w x).1 = perChannelPure w m x ∧ Coherent (m.perChannel w x).2 := by
  unfold Mct.perChannel perChannelPure
  obtain ⟨h1, h2⟩ := channelYields_coh m.processes (x.take m.numProcesses) m.chanIds h hcs
  generalize w.channelYields m.processes (x.take m.numProcesses) m.chanIds = r at h1 h2 ⊢
  obtain ⟨r1, w1⟩ := r
  simp only at h1 h2
  subst h1
  cases yieldsPure w m.processes (x.take m.numProcesses) m.chanIds with
  | error e => exact ⟨rfl, h2⟩
  | ok ys => exact ⟨rfl, h2⟩

theorem CacheOnly.perChannelPure {a b : World} (h : CacheOnly a b) (m : Mct) (x : Vec) :
    perChannelPure b m x = perChannelPure a m x := by
  unfold TF.perChannelPure Mct.numNui; rw [h.yieldsPure, h.chans]

/-- the likelihood value without caches -/
def nllPure (w : World) (m : Mct) (x : Vec) : Except Err Fl :=
  match perChannelPure w m x with
  | .error e => .error e
  | .ok (ys, ns) =>
    match channelsPure w m.chanIds ys ns with
    | .error e => .error e
    | .ok s =>
      match m.constraintSum x m.constrained with
      | .error e => .error e
      | .ok k => .ok (s + k)

theorem CacheOnly.nllPure {a b : World} (h : CacheOnly a b) (m : Mct) (x : Vec) :
    nllPure b m x = nllPure a m x := by
  unfold TF.nllPure
  rw [h.perChannelPure]
  simp only [h.channelsPure]

theorem nll_coh {w : World} (h : Coherent w) (m : Mct) (hcs : ∀ c ∈ m.chanIds, c < w.nChans)
    (x : Vec) : (m.nll w x).1 = nllPure w m x ∧ Coherent (m.nll w x).2 := by
  unfold Mct.nll nllPure
  obtain ⟨h1, h2⟩ := perChannel_coh h m hcs x
  have h3 := perChannel_frame w m x
  generalize m.perChannel w x = r at h1 h2 h3 ⊢
  obtain ⟨r1, w1⟩ := r
  simp only at h1 h2 h3
  subst h1
  cases perChannelPure w m x with
  | error e => exact ⟨rfl, h2⟩
  | ok p =>
    obtain ⟨ys, ns⟩ := p
    simp only
    obtain ⟨h4, h5⟩ := nllChannels_coh m.chanIds h2 (fun c hc => by rw [h3.nChans]; exact hcs c hc) ys ns
    rw [h3.channelsPure] at h4
    generalize w1.nllChannels m.chanIds ys ns = r at h4 h5 ⊢
    obtain ⟨r1, w2⟩ := r
    simp only at h4 h5
    subst h4
    cases channelsPure w m.chanIds ys ns with
    | error e => exact ⟨rfl, h5⟩
    | ok s =>
      simp only
      cases m.constraintSum x m.constrained with
      | error e => exact ⟨rfl, h5⟩
      | ok k => exact ⟨rfl, h5⟩

end

end TF
