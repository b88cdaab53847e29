import Verif.RefineCores
import Verif.Props.RefineTeam
import Verif.Props.WeakMemoryExamples

/-! C123: an instrumented program with several threads does what the original does on x86. -/

namespace Verif

variable {ι κ L : Type}

/-! ## Writes -/

theorem shared_append (A : ι → W → Prop) (ws ws' : List (W × Byte)) : shared A (ws ++ ws') = shared A ws ++ shared A ws' :=
  List.filter_append ..

open Classical in
theorem shared_cons_pub {A : ι → W → Prop} {w : W × Byte} (h : ∀ i, ¬ A i w.1) (ws : List (W × Byte)) :
    shared A (w :: ws) = w :: shared A ws := List.filter_cons_of_pos (by simpa using h)

open Classical in
theorem shared_cons_priv {A : ι → W → Prop} {w : W × Byte} (h : ¬ ∀ i, ¬ A i w.1) (ws : List (W × Byte)) :
    shared A (w :: ws) = shared A ws := List.filter_cons_of_neg (by simpa using h)

open Classical in
theorem shared_nil {A : ι → W → Prop} {ws : List (W × Byte)} (h : ∀ w ∈ ws, ∃ i, A i w.1) : shared A ws = [] := by
  refine List.filter_eq_nil_iff.mpr fun w hw => ?_
  obtain ⟨i, hi⟩ := h w hw
  simp only [decide_eq_true_eq]
  exact fun hn => hn i hi

/-- What is read outside of the areas depends on the writes there only. -/
theorem after_shared {A : ι → W → Prop} {x : W} (hx : ∀ i, ¬ A i x) (mem : Mem) (ws : List (W × Byte)) :
    afterWrites mem ws x = afterWrites mem (shared A ws) x := by
  induction ws generalizing mem with
  | nil => rfl
  | cons w ws ih =>
    by_cases h : ∀ i, ¬ A i w.1
    · rw [shared_cons_pub h]; exact ih _
    · rw [shared_cons_priv h, ← ih]
      refine afterWrites_same ?_ ws
      have : x ≠ w.1 := fun e => h (e ▸ hx)
      exact if_neg this

theorem after_agree {A : ι → W → Prop} {x : W} (hx : ∀ i, ¬ A i x) {mem mem' : Mem} (hm : mem' x = mem x)
    {ws ws' : List (W × Byte)} (hw : shared A ws' = shared A ws) : afterWrites mem' ws' x = afterWrites mem ws x := by
  rw [after_shared hx mem' ws', hw, ← after_shared hx]
  exact afterWrites_same hm ws

/-- The bytes which an instruction writes. -/
theorem exec_writes {ins : Instr} {s s' : State} (h : exec ins s = .next s' ∨ ∃ l, exec ins s = .goto l s') :
    ∃ ws, afterWrites s.mem ws = s'.mem ∧ ∀ x ∈ ws, ∃ p ∈ Wr.stores ins s, InRange x.1 p.1 p.2 := by
  have one : ∀ p v : W, ∀ x ∈ eightWrites p v 8, InRange x.1 p 8 := by
    intro p v x hx
    simp only [eightWrites, List.mem_map, List.mem_range] at hx
    obtain ⟨k, hk, rfl⟩ := hx
    simp only [InRange]
    bv_omega
  cases ins <;> rcases h with h | ⟨l, h⟩ <;> simp only [exec] at h <;> (try split at h) <;> cases h <;>
    first
    | exact ⟨[], rfl, nofun⟩
    | exact ⟨eightWrites _ _ 8, eightWrites_write _ _ _, fun x hx => ⟨_, List.mem_singleton.mpr rfl, one _ _ x hx⟩⟩

theorem go_writes {w r r' : Code} {ins : Instr} {s s' : State} (h : Go w (ins :: r) s r' s') :
    ∃ ws, afterWrites s.mem ws = s'.mem ∧ ∀ x ∈ ws, ∃ p ∈ Wr.stores ins s, InRange x.1 p.1 p.2 := by
  cases h with
  | next e => exact exec_writes (.inl e)
  | goto e _ => exact exec_writes (.inr ⟨_, e⟩)

section
variable [DecidableEq ι] {P : CoreGuest κ L} {D : ι → Blind κ} {g : ι → W} {A : ι → W → Prop}
  {M0 : Cores ι κ} {Q : ι → Book → Cores ι κ → Prop} {M : Cores ι κ} {N : Cores ι (Stand κ)}

/-! ## Views -/

theorem Cores.put_view (M : Cores ι κ) (i : ι) (k : κ) (c : Cpu) (ws : List (W × Byte)) :
    (M.put i k c ws).view i = afterWrites (M.view i) ws := by
  simp [Cores.view, Cores.put, afterWrites_append]

theorem Cores.put_view_ne (M : Cores ι κ) {i j : ι} (h : j ≠ i) (k : κ) (c : Cpu) (ws : List (W × Byte)) :
    (M.put i k c ws).view j = M.view j := by
  simp [Cores.view, Cores.put, h]

theorem Cores.sync_view (M : Cores ι κ) (i : ι) (k : κ) (c : Cpu) (ws : List (W × Byte)) (hb : M.buf i = []) :
    (M.sync i k c ws).view i = afterWrites (M.view i) ws := by
  simp [Cores.view, Cores.sync, hb, afterWrites]

theorem Cores.sync_view_ne (M : Cores ι κ) (i j : ι) (k : κ) (c : Cpu) {ws : List (W × Byte)} {x : W}
    (hx : ∀ w ∈ ws, w.1 ≠ x) : (M.sync i k c ws).view j x = M.view j x :=
  afterWrites_same (afterWrites_away hx) _

theorem Cores.drain_view (M : Cores ι κ) (i : ι) {w : W × Byte} {ws : List (W × Byte)} (hb : M.buf i = w :: ws) :
    (M.drain i w ws).view i = M.view i := by
  simp only [Cores.view, Cores.drain, hb, if_true]
  rfl

theorem Cores.drain_view_ne (M : Cores ι κ) {i j : ι} (h : j ≠ i) {w : W × Byte} {ws : List (W × Byte)} {x : W}
    (hx : w.1 ≠ x) : (M.drain i w ws).view j x = M.view j x := by
  simp only [Cores.view, Cores.drain, h, if_false]
  exact afterWrites_same (if_neg fun e => hx e.symm) _

omit [DecidableEq ι] in
theorem Cores.at_eq {κ' : Type} {M : Cores ι κ} {M' : Cores ι κ'} {i : ι} (h1 : M'.cpu i = M.cpu i) (h2 : M'.view i = M.view i) :
    M'.at_ i = M.at_ i := by simp [Cores.at_, h1, h2]

/-! ## The correspondence -/

/-- How the threads correspond. -/
structure CoreSim (D : ι → Blind κ) (g : ι → W) (A : ι → W → Prop) (Q : ι → Book → Cores ι κ → Prop) (M : Cores ι κ)
    (N : Cores ι (Stand κ)) : Prop where
  mem : ∀ x, (∀ i, ¬ A i x) → N.mem x = M.mem x
  bufs : ∀ i, shared A (N.buf i) = shared A (M.buf i)
  ours : ∀ i j, j ≠ i → (∀ w ∈ M.buf i, ¬ A j w.1) ∧ ∀ w ∈ N.buf i, ¬ A j w.1
  seen : ∀ i x, A i x → ¬ (D i).mem (M.pos i) (M.sp i) x → N.view i x = M.view i x
  thr : ∀ i, ∃ b, Q i b M ∧ Going (D i) (g i) (A i) b (M.at_ i) (N.at_ i) (M.pos i) (N.pos i)

/-- A thread cannot tell its views apart. -/
theorem CoreSim.view (h : CoreSim D g A Q M N) {i : ι} {x : W} (hx : ¬ (coreBlind D A i).mem (M.pos i) (M.sp i) x) :
    N.view i x = M.view i x := by
  by_cases ha : A i x
  · exact h.seen i x ha fun hd => hx (.inl hd)
  · have hn : ∀ j, ¬ A j x := fun j hj => by
      by_cases e : j = i
      · subst e; exact ha hj
      · exact hx (.inr ⟨j, e, hj⟩)
    exact after_agree hn (h.mem x hn) (h.bufs i)

/-- Outside of snippets it is the correspondence of a single thread. -/
theorem CoreSim.sim (h : CoreSim D g A Q M N) {i : ι} {k : κ} (hk : N.pos i = .own k) :
    M.pos i = k ∧ ∃ b, Q i b M ∧ Sim (coreBlind D A i) (g i) b k (M.at_ i) (N.at_ i) := by
  obtain ⟨b, hq, hg⟩ := h.thr i
  rw [hk] at hg
  generalize hp : M.pos i = p at hg ⊢
  cases hg with
  | own h1 h2 h3 =>
    refine ⟨rfl, b, hq, ⟨h1.regs, h1.flags, h1.gs, fun x hx => h.view ?_⟩, h2, h3⟩
    rw [hp]; exact hx

/-- One thread has moved; the others have not noticed. -/
theorem CoreSim.moved (hP : P.Respects D g A M0) (h : CoreSim D g A Q M N) {M' : Cores ι κ} {N' : Cores ι (Stand κ)} (i : ι)
    (hmem : ∀ x, (∀ i, ¬ A i x) → N'.mem x = M'.mem x) (hbuf : ∀ j, shared A (N'.buf j) = shared A (M'.buf j))
    (hours : ∀ i j, j ≠ i → (∀ w ∈ M'.buf i, ¬ A j w.1) ∧ ∀ w ∈ N'.buf i, ¬ A j w.1)
    (hm : ∀ j, j ≠ i → M'.pos j = M.pos j ∧ M'.cpu j = M.cpu j ∧ ∀ x, A j x → M'.view j x = M.view j x)
    (hn : ∀ j, j ≠ i → N'.pos j = N.pos j ∧ N'.cpu j = N.cpu j ∧ ∀ x, A j x → N'.view j x = N.view j x)
    (hq : ∀ j b, j ≠ i → Q j b M → Q j b M')
    (hseen : ∀ x, A i x → ¬ (D i).mem (M'.pos i) (M'.sp i) x → N'.view i x = M'.view i x)
    (hthr : ∃ b, Q i b M' ∧ Going (D i) (g i) (A i) b (M'.at_ i) (N'.at_ i) (M'.pos i) (N'.pos i)) :
    CoreSim D g A Q M' N' where
  mem := hmem
  bufs := hbuf
  ours := hours
  seen j x hx hd := by
    by_cases e : j = i
    · subst e; exact hseen x hx hd
    · rw [(hm j e).2.2 x hx, (hn j e).2.2 x hx]
      refine h.seen j x hx ?_
      rwa [(hm j e).1, Cores.sp, (hm j e).2.1] at hd
  thr j := by
    by_cases e : j = i
    · subst e; exact hthr
    · obtain ⟨b, k1, k2⟩ := h.thr j
      refine ⟨b, hq j b e k1, ?_⟩
      rw [(hm j e).1, (hn j e).1]
      refine k2.still (fun x hx => hP.hidden j (M.pos j) (M.sp j) x (hP.region j _ _ x hx)) ?_ ?_ (hn j e).2.2
      · simp [Cores.at_, Cpu.with_, State.cpu, (hm j e).2.1]
      · simp [Cores.at_, Cpu.with_, State.cpu, (hn j e).2.1]

/-! ## Bytes get to memory -/

omit [DecidableEq ι] in
theorem away {A : ι → W → Prop} {w : W × Byte} {j : ι} {x : W} (h : ¬ A j w.1) (hx : A j x) : w.1 ≠ x := fun e => h (e ▸ hx)

theorem CoreSim.ours_drain (h : CoreSim D g A Q M N) {i : ι} {w : W × Byte} {ws : List (W × Byte)} (hb : M.buf i = w :: ws)
    (a j : ι) (hj : j ≠ a) : (∀ u ∈ (M.drain i w ws).buf a, ¬ A j u.1) := by
  intro u hu
  by_cases e : a = i
  · subst e
    simp only [Cores.drain, if_true] at hu
    exact (h.ours a j hj).1 u (hb ▸ List.mem_cons_of_mem _ hu)
  · simp only [Cores.drain, e, if_false] at hu
    exact (h.ours a j hj).1 u hu

theorem CoreSim.ours_drain' (h : CoreSim D g A Q M N) {i : ι} {w : W × Byte} {ws : List (W × Byte)} (hb : N.buf i = w :: ws)
    (a j : ι) (hj : j ≠ a) : (∀ u ∈ (N.drain i w ws).buf a, ¬ A j u.1) := by
  intro u hu
  by_cases e : a = i
  · subst e
    simp only [Cores.drain, if_true] at hu
    exact (h.ours a j hj).2 u (hb ▸ List.mem_cons_of_mem _ hu)
  · simp only [Cores.drain, e, if_false] at hu
    exact (h.ours a j hj).2 u hu

/-- A byte of an area in the original. -/
theorem CoreSim.drain_left (hP : P.Respects D g A M0) (hH : P.Accounts D g A M0 Q) (h : CoreSim D g A Q M N)
    {tr : List (ι × L)} (hrun : CoreRun P M0 tr M) {i : ι} {w : W × Byte} {ws : List (W × Byte)} (hb : M.buf i = w :: ws)
    (hw : ¬ ∀ i, ¬ A i w.1) : CoreSim D g A Q (M.drain i w ws) N := by
  have hv := M.drain_view i hb
  refine h.moved hP i (fun x hx => ?_) (fun j => ?_) (fun a j hj => ⟨h.ours_drain hb a j hj, (h.ours a j hj).2⟩)
    (fun j hj => ⟨rfl, rfl, fun x hx => M.drain_view_ne hj (away ((h.ours i j hj).1 w (by rw [hb]; exact List.mem_cons_self ..)) hx)⟩)
    (fun j hj => ⟨rfl, rfl, fun _ _ => rfl⟩) (fun j b _ hq => hH.move _ _ _ _ _ _ _ hrun hq (.drain hb)) (fun x hx hd => ?_) ?_
  · rw [h.mem x hx]
    exact (if_neg fun (e : x = w.1) => hw (e ▸ hx)).symm
  · by_cases e : j = i
    · subst e
      rw [h.bufs j, hb, shared_cons_priv hw]
      simp [Cores.drain]
    · simp only [Cores.drain, e, if_false]; exact h.bufs j
  · rw [hv]; exact h.seen i x hx hd
  · obtain ⟨b, k1, k2⟩ := h.thr i
    refine ⟨b, hH.move _ _ _ _ _ _ _ hrun k1 (.drain hb), ?_⟩
    rw [Cores.at_eq (M := M) (M' := M.drain i w ws) rfl hv]
    exact k2

/-- A byte of an area in the instrumented program. -/
theorem CoreSim.drain_right (hP : P.Respects D g A M0) (h : CoreSim D g A Q M N) {i : ι} {w : W × Byte}
    {ws : List (W × Byte)} (hb : N.buf i = w :: ws) (hw : ¬ ∀ i, ¬ A i w.1) : CoreSim D g A Q M (N.drain i w ws) := by
  have hv := N.drain_view i hb
  refine h.moved hP i (fun x hx => ?_) (fun j => ?_) (fun a j hj => ⟨(h.ours a j hj).1, h.ours_drain' hb a j hj⟩)
    (fun j hj => ⟨rfl, rfl, fun _ _ => rfl⟩)
    (fun j hj => ⟨rfl, rfl, fun x hx => N.drain_view_ne hj (away ((h.ours i j hj).2 w (by rw [hb]; exact List.mem_cons_self ..)) hx)⟩)
    (fun j b _ hq => hq) (fun x hx hd => ?_) ?_
  · rw [← h.mem x hx]
    exact if_neg fun (e : x = w.1) => hw (e ▸ hx)
  · by_cases e : j = i
    · subst e
      rw [← h.bufs j, hb, shared_cons_priv hw]
      simp [Cores.drain]
    · simp only [Cores.drain, e, if_false]; exact h.bufs j
  · rw [hv]; exact h.seen i x hx hd
  · obtain ⟨b, k1, k2⟩ := h.thr i
    refine ⟨b, k1, ?_⟩
    rw [Cores.at_eq (M := N) (M' := N.drain i w ws) rfl hv]
    exact k2

/-- Another byte in both. -/
theorem CoreSim.drain_both (hP : P.Respects D g A M0) (hH : P.Accounts D g A M0 Q) (h : CoreSim D g A Q M N)
    {tr : List (ι × L)} (hrun : CoreRun P M0 tr M) {i : ι} {w : W × Byte} {ws ws' : List (W × Byte)} (hb : M.buf i = w :: ws)
    (hb' : N.buf i = w :: ws') (hw : ∀ i, ¬ A i w.1) : CoreSim D g A Q (M.drain i w ws) (N.drain i w ws') := by
  have hv := M.drain_view i hb
  have hv' := N.drain_view i hb'
  refine h.moved hP i (fun x hx => ?_) (fun j => ?_) (fun a j hj => ⟨h.ours_drain hb a j hj, h.ours_drain' hb' a j hj⟩)
    (fun j hj => ⟨rfl, rfl, fun x hx => M.drain_view_ne hj (away (hw j) hx)⟩)
    (fun j hj => ⟨rfl, rfl, fun x hx => N.drain_view_ne hj (away (hw j) hx)⟩)
    (fun j b _ hq => hH.move _ _ _ _ _ _ _ hrun hq (.drain hb)) (fun x hx hd => ?_) ?_
  · simp only [Cores.drain, h.mem x hx]
  · by_cases e : j = i
    · subst e
      have := h.bufs j
      rw [hb, hb', shared_cons_pub hw, shared_cons_pub hw] at this
      simpa [Cores.drain] using this
    · simp only [Cores.drain, e, if_false]; exact h.bufs j
  · rw [hv, hv']; exact h.seen i x hx hd
  · obtain ⟨b, k1, k2⟩ := h.thr i
    refine ⟨b, hH.move _ _ _ _ _ _ _ hrun k1 (.drain hb), ?_⟩
    rw [Cores.at_eq (M := M) (M' := M.drain i w ws) rfl hv, Cores.at_eq (M := N) (M' := N.drain i w ws') rfl hv']
    exact k2

omit [DecidableEq ι] in
theorem nil_run {tr : List (ι × L)} (i : ι) : tr ++ ([] : List L).map (Prod.mk i) = tr := by simp

/-- The original passes on what it must until the first byte outside of the areas, or everything. -/
theorem CoreSim.flush_left (hP : P.Respects D g A M0) (hH : P.Accounts D g A M0 Q) {tr : List (ι × L)} {i : ι} :
    ∀ (bs : List (W × Byte)) {M : Cores ι κ}, M.buf i = bs → CoreRun P M0 tr M → CoreSim D g A Q M N →
    ∃ M', CoreRun P M0 tr M' ∧ CoreSim D g A Q M' N ∧ M'.pos = M.pos ∧ M'.at_ i = M.at_ i ∧
      (M'.buf i = [] ∨ ∃ w ws, M'.buf i = w :: ws ∧ ∀ i, ¬ A i w.1)
  | [], M, hb, hrun, h => ⟨M, hrun, h, rfl, rfl, .inl hb⟩
  | w :: ws, M, hb, hrun, h => by
    by_cases hw : ∀ i, ¬ A i w.1
    · exact ⟨M, hrun, h, rfl, rfl, .inr ⟨w, ws, hb, hw⟩⟩
    · have hr := hrun.move (.drain hb)
      rw [nil_run] at hr
      obtain ⟨M', k1, k2, k3, k4, k5⟩ := flush_left hP hH ws (i := i) (M := M.drain i w ws) (by simp [Cores.drain]) hr
        (h.drain_left hP hH hrun hb hw)
      exact ⟨M', k1, k2, k3, k4.trans (Cores.at_eq (M := M) (M' := M.drain i w ws) rfl (M.drain_view i hb)), k5⟩

/-- Likewise the instrumented program. -/
theorem CoreSim.flush_right (hP : P.Respects D g A M0) {tr : List (ι × L)} {i : ι} :
    ∀ (bs : List (W × Byte)) {N : Cores ι (Stand κ)}, N.buf i = bs → ArmedCores P M0 tr (some N) → CoreSim D g A Q M N →
    ∃ N', ArmedCores P M0 tr (some N') ∧ CoreSim D g A Q M N' ∧ N'.pos = N.pos ∧ N'.at_ i = N.at_ i ∧
      (N'.buf i = [] ∨ ∃ w ws, N'.buf i = w :: ws ∧ ∀ i, ¬ A i w.1)
  | [], N, hb, hrun, h => ⟨N, hrun, h, rfl, rfl, .inl hb⟩
  | w :: ws, N, hb, hrun, h => by
    by_cases hw : ∀ i, ¬ A i w.1
    · exact ⟨N, hrun, h, rfl, rfl, .inr ⟨w, ws, hb, hw⟩⟩
    · have hr := hrun.step (.drain hb)
      rw [nil_run] at hr
      obtain ⟨N', k1, k2, k3, k4, k5⟩ := flush_right hP ws (i := i) (N := N.drain i w ws) (by simp [Cores.drain]) hr
        (h.drain_right hP hb hw)
      exact ⟨N', k1, k2, k3, k4.trans (Cores.at_eq (M := N) (M' := N.drain i w ws) rfl (N.drain_view i hb)), k5⟩

/-! ## Steps -/

/-- A step of the program, from the correspondence of the thread. -/
theorem CoreSim.owned (hP : P.Respects D g A M0) (hH : P.Accounts D g A M0 Q) (h : CoreSim D g A Q M N) {tr : List (ι × L)}
    (hrun : CoreRun P M0 tr M) {i : ι} {k' : κ} {c c' : Cpu} {ws ws' : List (W × Byte)} {l : L}
    (hk : N.pos i = .own (M.pos i)) (hs : P.step (M.pos i) (M.at_ i) ws l k' c)
    (ht : P.step (M.pos i) (N.at_ i) ws' l k' c') (hw : shared A ws' = shared A ws)
    (hn : (coreBlind D A i).Same k' (c.with_ (afterWrites (M.view i) ws)) (c'.with_ (afterWrites (N.view i) ws')))
    {M' : Cores ι κ} {N' : Cores ι (Stand κ)}
    (hc : ¬ P.locked (M.pos i) ∧ M' = M.put i k' c ws ∧ N' = N.put i (.own k') c' ws' ∨
      P.locked (M.pos i) ∧ M.buf i = [] ∧ N.buf i = [] ∧ M' = M.sync i k' c ws ∧ N' = N.sync i (.own k') c' ws') :
    CoreSim D g A Q M' N' := by
  obtain ⟨_, b, hq, hsim⟩ := h.sim hk
  obtain ⟨g1, m1, r1, f1⟩ := hP.spares _ _ _ _ _ _ _ _ hrun hsim.same ht
  obtain ⟨_, m2, r2, _⟩ := hP.spares _ _ _ _ _ _ _ _ hrun (Near.rfl' _ _ _ _) hs
  have hmove : CoreMove P M i [l] M' := by
    rcases hc with ⟨h1, rfl, _⟩ | ⟨h1, h2, _, rfl, _⟩
    · exact .own h1 hs
    · exact .locked h1 h2 hs
  have hpos : M'.pos i = k' ∧ M'.cpu i = c ∧ M'.view i = afterWrites (M.view i) ws ∧ N'.pos i = .own k' ∧ N'.cpu i = c' ∧
      N'.view i = afterWrites (N.view i) ws' := by
    rcases hc with ⟨_, rfl, rfl⟩ | ⟨_, h2, h3, rfl, rfl⟩
    · exact ⟨if_pos rfl, if_pos rfl, M.put_view .., if_pos rfl, if_pos rfl, N.put_view ..⟩
    · exact ⟨if_pos rfl, if_pos rfl, M.sync_view _ _ _ _ h2, if_pos rfl, if_pos rfl, N.sync_view _ _ _ _ h3⟩
  obtain ⟨e1, e2, e3, e4, e5, e6⟩ := hpos
  have region : ∀ x, InRange x (g i) regionSize → afterWrites (N.view i) ws' x = N.view i x := fun x hx =>
    afterWrites_away fun w hw e => (m1 w hw).1 (e ▸ hx)
  refine h.moved hP i (fun x hx => ?_) (fun j => ?_) (fun a j hj => ?_) (fun j hj => ?_) (fun j hj => ?_)
    (fun j b _ hq => hH.move _ _ _ _ _ _ _ hrun hq hmove) (fun x hx hd => ?_) ⟨b, hH.move _ _ _ _ _ _ _ hrun hq hmove, ?_⟩
  · rcases hc with ⟨_, rfl, rfl⟩ | ⟨_, _, _, rfl, rfl⟩
    · exact h.mem x hx
    · exact after_agree hx (h.mem x hx) hw
  · rcases hc with ⟨_, rfl, rfl⟩ | ⟨_, _, _, rfl, rfl⟩
    · by_cases e : j = i
      · subst e
        simp only [Cores.put, if_true, shared_append, h.bufs j, hw]
      · simp only [Cores.put, e, if_false]; exact h.bufs j
    · exact h.bufs j
  · rcases hc with ⟨_, rfl, rfl⟩ | ⟨_, _, _, rfl, rfl⟩
    · by_cases e : a = i
      · subst e
        simp only [Cores.put, if_true, List.mem_append]
        exact ⟨fun w hw => hw.elim ((h.ours a j hj).1 w) fun hw => (m2 w hw).2 j hj,
          fun w hw => hw.elim ((h.ours a j hj).2 w) fun hw => (m1 w hw).2 j hj⟩
      · simp only [Cores.put, e, if_false]; exact h.ours a j hj
    · exact h.ours a j hj
  · rcases hc with ⟨_, rfl, rfl⟩ | ⟨_, _, _, rfl, rfl⟩
    · exact ⟨if_neg hj, if_neg hj, fun x _ => by rw [M.put_view_ne hj]⟩
    · exact ⟨if_neg hj, if_neg hj, fun x hx => M.sync_view_ne _ _ _ _ fun w hw => away ((m2 w hw).2 j hj) hx⟩
  · rcases hc with ⟨_, rfl, rfl⟩ | ⟨_, _, _, rfl, rfl⟩
    · exact ⟨if_neg hj, if_neg hj, fun x _ => by rw [N.put_view_ne hj]⟩
    · exact ⟨if_neg hj, if_neg hj, fun x hx => N.sync_view_ne _ _ _ _ fun w hw => away ((m1 w hw).2 j hj) hx⟩
  · rw [e3, e6]
    rw [e1, Cores.sp, e2] at hd
    exact hn.mem x fun hb => hb.elim hd fun ⟨j, hj, ha⟩ => hj (hP.apart _ _ _ ha hx)
  · rw [e1, e4, Cores.at_, Cores.at_, e2, e3, e5, e6]
    refine .own ⟨hn.regs, hn.flags, hn.gs, fun _ h => absurd trivial h⟩
      (hsim.held.keep g1 fun x hx => region x (recorded_foot hx)) ?_
    have hl := hsim.leaf
    rw [f1]
    change LeafOk _ _ _ ((D i).frame (M.pos i)) _ at hl
    generalize hF : (D i).frame (M.pos i) = F at hl ⊢
    generalize b.leaf = lf at hl ⊢
    cases hl with
    | out => exact .out
    | inside e1 e2 =>
      refine .inside ((r1 _ hF).trans e1) ?_
      refine Eq.trans ?_ (e2.trans (r2 _ hF).symm)
      exact read64_eq _ _ _ fun x hx => region x (scratch_region hx)

theorem idle_cores (hP : P.Respects D g A M0) (i : ι) (k0 : κ) (s0 : State) :
    (Guest.mk (fun _ _ _ _ _ => False) P.site : Guest κ L).Respects (coreBlind D A i) (g i) k0 s0 where
  rsp := hP.rsp i
  region k sp x hx := .inl (hP.region i k sp x hx)
  spares _ _ _ _ _ _ _ _ _ h := h.elim
  forth _ _ _ _ _ _ _ _ _ h := h.elim
  back _ _ _ _ _ _ _ _ _ h := h.elim

theorem Cores.put_nil (N : Cores ι κ) (i : ι) (p : κ) : (N.put i p (N.cpu i) []).at_ i = N.at_ i := by
  rw [Cores.at_, Cores.put_view, show (N.put i p (N.cpu i) []).cpu i = N.cpu i from if_pos rfl]
  rfl

theorem Cores.put_at (N : Cores ι κ) (i : ι) (p : κ) {t : State} {ws : List (W × Byte)}
    (h : afterWrites (N.view i) ws = t.mem) : (N.put i p t.cpu ws).at_ i = t := by
  rw [Cores.at_, Cores.put_view, h, show (N.put i p t.cpu ws).cpu i = t.cpu from if_pos rfl]
  rfl

theorem Cores.put_nil_ne (N : Cores ι κ) {i j : ι} (hj : j ≠ i) (p : κ) (c : Cpu) (ws : List (W × Byte)) :
    (N.put i p c ws).pos j = N.pos j ∧ (N.put i p c ws).cpu j = N.cpu j ∧
      ∀ x, A j x → (N.put i p c ws).view j x = N.view j x :=
  ⟨if_neg hj, if_neg hj, fun x _ => by rw [N.put_view_ne hj]⟩

theorem Cores.put_nil_buf (N : Cores ι κ) (i j : ι) (p : κ) (c : Cpu) : (N.put i p c []).buf j = N.buf j := by
  by_cases e : j = i
  · subst e; simp [Cores.put]
  · simp [Cores.put, e]

/-- A snippet begins. -/
theorem CoreSim.entered (hP : P.Respects D g A M0) (hH : P.Accounts D g A M0 Q) (h : CoreSim D g A Q M N)
    {tr : List (ι × L)} (hrun : CoreRun P M0 tr M) {i : ι} {k' : κ} {c : Code} (hk : N.pos i = .own (M.pos i))
    (hx : P.site (M.pos i) = some (c, k')) :
    CoreSim D g A Q (M.put i k' (M.cpu i) []) (N.put i (.busy c c k') (N.cpu i) []) := by
  obtain ⟨_, b, hq, hsim⟩ := h.sim hk
  obtain ⟨x, b', rfl, hfit, hb, hq', hkeep, hbelow⟩ := hH.pass _ _ _ _ _ _ hrun hq hx
  have hR := idle_cores (M0 := M0) hP i (M.pos i) (M.at_ i)
  obtain ⟨t', he, hsim'⟩ := hsim.snip hR hfit hb
  obtain ⟨hw, hv⟩ := hfit.read hR hsim.same
  obtain ⟨w1, w2⟩ := Site.paths (hR.same_rsp hsim.same) hw hv (hfit.apart' hR hsim.same) hfit hb hsim
  refine h.moved hP i h.mem (fun j => by rw [Cores.put_nil_buf, Cores.put_nil_buf]; exact h.bufs j)
    (fun a j hj => by rw [Cores.put_nil_buf, Cores.put_nil_buf]; exact h.ours a j hj) (fun j hj => M.put_nil_ne hj _ _ _)
    (fun j hj => N.put_nil_ne hj _ _ _) (fun j b1 hj hq1 => hH.other _ _ _ _ _ _ _ hrun hq1 hj hx) (fun a ha hd => ?_)
    ⟨b', hq', ?_⟩
  · rw [Cores.put_view, Cores.put_view]
    refine h.seen i a ha fun hl => hd ?_
    have e1 : (M.put i k' (M.cpu i) []).pos i = k' := if_pos rfl
    have e2 : (M.put i k' (M.cpu i) []).sp i = M.sp i := congrArg (fun c : Cpu => c.regs .rsp) (if_pos rfl)
    rw [e1, e2]
    exact (hfit.mem a (.inl (.inl hl))).elim id fun ⟨j, hj, ha'⟩ => absurd (hP.apart _ _ _ ha' ha) hj
  · rw [Cores.put_nil, Cores.put_nil, show (M.put i k' (M.cpu i) []).pos i = k' from if_pos rfl,
      show (N.put i (Stand.busy x.code x.code k') (N.cpu i) []).pos i = .busy x.code x.code k' from if_pos rfl]
    refine .busy (exits_path w1 he) (exits_wr w2 he) ⟨rfl, rfl, rfl, fun _ _ => rfl⟩ ?_ (fun a ha => .inl ha) ?_
      ⟨hsim'.same.regs, hsim'.same.flags, hsim'.same.gs, fun _ h => absurd trivial h⟩ hsim'.held hsim'.leaf
    · rintro a (ha | ha | ha)
      · exact hP.hidden i (M.pos i) (M.sp i) a (hP.region i _ _ a ha)
      · exact hkeep a ha
      · exact hP.hidden i _ _ a (hbelow a ha)
    · rintro a (ha | ha)
      · exact hP.region i _ _ a ha
      · exact hbelow a ha

/-- An instruction of a snippet. -/
theorem CoreSim.instr (hP : P.Respects D g A M0) (h : CoreSim D g A Q M N) {i : ι} {k' : κ} {w r r' : Code} {ins : Instr}
    {t' : State} {ws : List (W × Byte)} (hk : N.pos i = .busy w (ins :: r) k') (hgo : Go w (ins :: r) (N.at_ i) r' t')
    (hws : afterWrites (N.view i) ws = t'.mem) (hst : ∀ x ∈ ws, ∃ p ∈ Wr.stores ins (N.at_ i), InRange x.1 p.1 p.2) :
    CoreSim D g A Q M (N.put i (.busy w r' k') t'.cpu ws) := by
  obtain ⟨b, hq, hg⟩ := h.thr i
  rw [hk] at hg
  have hpt := hg.point
  simp only [Stand.point] at hpt
  subst hpt
  cases hg with
  | @busy _ _ s1 s2 F G h1 h2 h3 h4 h5 h6 h7 h8 h9 =>
    cases h1 with
    | step ht hg1 h1 =>
      cases h2 with
      | step hw hg2 h2 =>
        obtain ⟨rfl, rfl⟩ := hg1.det hg2
        obtain ⟨s1', hg3, hag, hout⟩ := hgo.agree h3 ht
        obtain ⟨rfl, rfl⟩ := hg1.det hg3
        have hwr := Wr.writes_regs h3.regs h3.gs hw
        have hA : ∀ x ∈ ws, G x.1 := fun x hx => by
          obtain ⟨p, hp, hr⟩ := hst x hx
          exact hwr p hp _ hr
        have hA' : ∀ x ∈ ws, A i x.1 := fun x hx => hP.hidden _ _ _ _ (h6 _ (hA x hx))
        refine h.moved hP i h.mem (fun j => ?_) (fun a j hj => ⟨(h.ours a j hj).1, fun x hx => ?_⟩)
          (fun j hj => ⟨rfl, rfl, fun _ _ => rfl⟩) (fun j hj => N.put_nil_ne hj _ _ _) (fun _ _ _ hq => hq)
          (fun x hx hd => ?_) ⟨b, hq, ?_⟩
        · by_cases e : j = i
          · subst e
            simp only [Cores.put, if_true, shared_append, shared_nil (fun x hx => ⟨j, hA' x hx⟩), List.append_nil]
            exact h.bufs j
          · simp only [Cores.put, e, if_false]; exact h.bufs j
        · by_cases e : a = i
          · subst e
            simp only [Cores.put, if_true, List.mem_append] at hx
            exact hx.elim ((h.ours a j hj).2 x) fun hx ha => hj (hP.apart _ _ _ ha (hA' x hx))
          · simp only [Cores.put, e, if_false] at hx
            exact (h.ours a j hj).2 x hx
        · rw [Cores.put_view, afterWrites_away (y := x) fun u hu e => hd (h6 x (e ▸ hA u hu))]
          exact h.seen i x hx hd
        · rw [Cores.put_at _ _ _ hws, show ∀ p, (N.put i p t'.cpu ws).pos i = p from fun _ => if_pos rfl]
          exact .busy h1 h2 hag h4 h5 h6 h7 h8 h9

/-- A snippet is over. -/
theorem CoreSim.leave (hP : P.Respects D g A M0) (h : CoreSim D g A Q M N) {i : ι} {k' : κ} {w : Code}
    (hk : N.pos i = .busy w [] k') : CoreSim D g A Q M (N.put i (.own k') (N.cpu i) []) := by
  obtain ⟨b, hq, hg⟩ := h.thr i
  rw [hk] at hg
  have hpt := hg.point
  simp only [Stand.point] at hpt
  subst hpt
  cases hg with
  | @busy _ _ s1 s2 F G h1 h2 h3 h4 h5 h6 h7 h8 h9 =>
    cases h1
    refine h.moved hP i h.mem (fun j => by rw [Cores.put_nil_buf]; exact h.bufs j)
      (fun a j hj => by rw [Cores.put_nil_buf]; exact h.ours a j hj) (fun j hj => ⟨rfl, rfl, fun _ _ => rfl⟩)
      (fun j hj => N.put_nil_ne hj _ _ _) (fun _ _ _ hq => hq) (fun x hx hd => ?_) ⟨b, hq, ?_⟩
    · rw [Cores.put_view]; exact h.seen i x hx hd
    · rw [Cores.put_nil, show (N.put i (Stand.own (M.pos i)) (N.cpu i) []).pos i = .own (M.pos i) from if_pos rfl]
      refine .own ⟨fun r hr => ?_, fun hf => ?_, ?_, fun _ h => absurd trivial h⟩
        (h8.keep h3.gs fun x hx => h3.mem x (h5 x (recorded_foot hx))) ?_
      · rw [h3.regs]; exact h7.regs r hr
      · rw [h3.flags]; exact h7.flags hf
      · rw [h3.gs]; exact h7.gs
      · exact h9.keep (fun r _ => by rw [h3.regs]) fun x hx => h3.mem x (h5 x (scratch_region hx))

omit [DecidableEq ι] in
/-- Snippets are not killed. -/
theorem CoreSim.no_trap (h : CoreSim D g A Q M N) {i : ι} {k' : κ} {w r : Code} {ins : Instr} {t' : State}
    (hk : N.pos i = .busy w (ins :: r) k') (hx : exec ins (N.at_ i) = .trap t') : False := by
  obtain ⟨b, hq, hg⟩ := h.thr i
  rw [hk] at hg
  obtain rfl := exec_trap hx
  generalize M.pos i = k at hg
  cases hg with
  | busy h1 => cases h1 with | step _ hg _ => exact go_illegal _ _ hg

/-- They come to an end. -/
theorem CoreSim.finish (hP : P.Respects D g A M0) {i : ι} {k' : κ} {F : W → Prop} {w r : Code} {s1 s2 : State} {e : Code}
    (hp : Path F w r s1 e s2) : ∀ {N : Cores ι (Stand κ)}, e = [] → CoreSim D g A Q M N → N.pos i = .busy w r k' →
      AgreeOn F s1 (N.at_ i) →
      ∃ N', OnlyCore P i N N' ∧ CoreSim D g A Q M N' ∧ N'.pos i = .own k' ∧ ∀ j, j ≠ i → N'.pos j = N.pos j := by
  induction hp with
  | refl =>
    intro N he h hk _
    subst he
    exact ⟨_, .step (.leave hk) rfl (.refl _), h.leave hP hk, if_pos rfl, fun j hj => if_neg hj⟩
  | step ht hg _ ih =>
    intro N he h hk ha
    obtain ⟨t1, hgo, ha'⟩ := hg.rev ha ht
    obtain ⟨ws, hws, hst⟩ := go_writes hgo
    obtain ⟨N', h1, h2, h3, h4⟩ := ih he (h.instr hP hk hgo hws hst) (if_pos rfl) (by
      rw [Cores.put_at _ _ _ hws]; exact ha')
    exact ⟨N', .step (.instr hk hgo hws hst) rfl h1, h2, h3, fun j hj => (h4 j hj).trans (if_neg hj)⟩

theorem CoreSim.done (hP : P.Respects D g A M0) (h : CoreSim D g A Q M N) (i : ι) :
    ∃ N', OnlyCore P i N N' ∧ CoreSim D g A Q M N' ∧ N'.pos i = .own (N.pos i).point ∧ ∀ j, j ≠ i → N'.pos j = N.pos j := by
  obtain ⟨b, hq, hg⟩ := h.thr i
  generalize hp : N.pos i = p at hg
  generalize hm : M.pos i = m at hg
  cases hg with
  | own => exact ⟨N, .refl N, h, hp, fun _ _ => rfl⟩
  | busy h1 _ h3 => exact h.finish hP h1 rfl hp h3

theorem OnlyCore.run {tr : List (ι × L)} {i : ι} {N' : Cores ι (Stand κ)} (h : OnlyCore P i N N') :
    ArmedCores P M0 tr (some N) → ArmedCores P M0 tr (some N') := by
  induction h with
  | refl => exact id
  | step hs _ _ ih =>
    intro hr
    have := hr.step hs
    rw [nil_run] at this
    exact ih this

theorem CoreSim.start (hP : P.Respects D g A M0) (hH : P.Accounts D g A M0 Q) (hr : ∀ i, Recorded (g i) [] (M0.at_ i))
    (hf : ∀ i, (D i).frame (M0.pos i) = none) : CoreSim D g A Q M0 M0.arm where
  mem _ _ := rfl
  bufs _ := rfl
  ours i j hj := ⟨hP.waits i j hj, hP.waits i j hj⟩
  seen _ _ _ _ := rfl
  thr i := by
    refine ⟨{}, hH.start i, .own ⟨fun _ _ => rfl, fun _ => rfl, rfl, fun _ _ => rfl⟩ (hr i) ?_⟩
    rw [hf i]; exact .out

omit [DecidableEq ι] in
theorem shared_first {A : ι → W → Prop} {w u : W × Byte} {ws us : List (W × Byte)} (hw : ∀ i, ¬ A i w.1) (hu : ∀ i, ¬ A i u.1)
    (h : shared A (w :: ws) = shared A (u :: us)) : w = u := by
  rw [shared_cons_pub hw, shared_cons_pub hu] at h
  exact (List.cons.inj h).1

/-- What the original does, the instrumented program does. -/
theorem CoreRun.forth (hP : P.Respects D g A M0) (hH : P.Accounts D g A M0 Q)
    (hr : ∀ i, Recorded (g i) [] (M0.at_ i)) (hf : ∀ i, (D i).frame (M0.pos i) = none) {tr : List (ι × L)}
    (h : CoreRun P M0 tr M) : ∃ N, ArmedCores P M0 tr (some N) ∧ (∀ i, N.pos i = .own (M.pos i)) ∧ CoreSim D g A Q M N := by
  induction h with
  | start => exact ⟨_, .start, fun _ => rfl, CoreSim.start hP hH hr hf⟩
  | @move tr M M' i ls h hs ih =>
    obtain ⟨N, hn, hpos, hsim⟩ := ih
    cases hs with
    | own hl hs =>
      obtain ⟨_, b, _, hsm⟩ := hsim.sim (hpos i)
      obtain ⟨ws', c', ht, hw, hnr⟩ := hP.forth _ _ _ _ _ _ _ _ h hsm.same hs
      refine ⟨_, hn.step (.own (hpos i) hl ht), fun j => ?_,
        hsim.owned hP hH h (hpos i) hs ht hw hnr (.inl ⟨hl, rfl, rfl⟩)⟩
      by_cases e : j = i
      · subst e; simp [Cores.put]
      · simp [Cores.put, e, hpos]
    | locked hl hb hs =>
      obtain ⟨N1, k1, k2, k3, k4, k5⟩ := hsim.flush_right hP (i := i) _ rfl hn
      have hpos1 : ∀ i, N1.pos i = .own (M.pos i) := fun j => by rw [k3]; exact hpos j
      have hb1 : N1.buf i = [] := by
        rcases k5 with k5 | ⟨w, ws, k5, k6⟩
        · exact k5
        · have := k2.bufs i
          rw [k5, hb, shared_cons_pub k6] at this
          cases this
      obtain ⟨_, b, _, hsm⟩ := k2.sim (hpos1 i)
      obtain ⟨ws', c', ht, hw, hnr⟩ := hP.forth _ _ _ _ _ _ _ _ h hsm.same hs
      refine ⟨_, k1.step (.locked (hpos1 i) hl hb1 ht), fun j => ?_,
        k2.owned hP hH h (hpos1 i) hs ht hw hnr (.inr ⟨hl, hb, hb1, rfl, rfl⟩)⟩
      by_cases e : j = i
      · subst e; simp [Cores.sync]
      · simp [Cores.sync, e, hpos1]
    | @drain w ws hb =>
      rw [nil_run]
      by_cases hw : ∀ i, ¬ A i w.1
      · obtain ⟨N1, k1, k2, k3, k4, k5⟩ := hsim.flush_right hP (i := i) _ rfl hn
        rcases k5 with k5 | ⟨u, us, k5, k6⟩
        · have := k2.bufs i
          rw [k5, hb, shared_cons_pub hw] at this
          cases this
        · have e := k2.bufs i
          rw [k5, hb] at e
          obtain rfl := shared_first k6 hw e
          have := k1.step (.drain k5)
          rw [nil_run] at this
          exact ⟨_, this, fun j => (congrFun k3 j).trans (hpos j), k2.drain_both hP hH h hb k5 hw⟩
      · exact ⟨N, hn, hpos, hsim.drain_left hP hH h hb hw⟩
  | @pass tr M i c k' h hx ih =>
    obtain ⟨N, hn, hpos, hsim⟩ := ih
    have hsim1 := hsim.entered hP hH h (hpos i) hx
    obtain ⟨N', h1, h2, h3, h4⟩ := hsim1.done hP i
    have := hn.step (.enter (hpos i) hx)
    rw [nil_run] at this
    refine ⟨N', h1.run this, fun j => ?_, h2⟩
    by_cases e : j = i
    · subst e; rw [h3]; simp [Cores.put, Stand.point]
    · rw [h4 j e]; simp [Cores.put, e, hpos]

/-- What the instrumented program does, the original does; and it is not killed. -/
theorem ArmedCores.back (hP : P.Respects D g A M0) (hH : P.Accounts D g A M0 Q)
    (hr : ∀ i, Recorded (g i) [] (M0.at_ i)) (hf : ∀ i, (D i).frame (M0.pos i) = none) {tr : List (ι × L)}
    {c : Option (Cores ι (Stand κ))} (h : ArmedCores P M0 tr c) :
    ∃ M N, c = some N ∧ CoreRun P M0 tr M ∧ CoreSim D g A Q M N := by
  induction h with
  | start => exact ⟨M0, _, rfl, .start, CoreSim.start hP hH hr hf⟩
  | @step tr N i ls c _ hs ih =>
    obtain ⟨M, N', e, hrun, hsim⟩ := ih
    cases e
    cases hs with
    | own hk hl ht =>
      obtain ⟨rfl, b, _, hsm⟩ := hsim.sim hk
      obtain ⟨ws, c, hs, hw, hnr⟩ := hP.back _ _ _ _ _ _ _ _ hrun hsm.same ht
      exact ⟨_, _, rfl, hrun.move (.own hl hs), hsim.owned hP hH hrun hk hs ht hw hnr (.inl ⟨hl, rfl, rfl⟩)⟩
    | locked hk hl hb ht =>
      obtain ⟨M1, k1, k2, k3, k4, k5⟩ := hsim.flush_left hP hH (i := i) _ rfl hrun
      have hb1 : M1.buf i = [] := by
        rcases k5 with k5 | ⟨w, ws, k5, k6⟩
        · exact k5
        · have := k2.bufs i
          rw [k5, hb, shared_cons_pub k6] at this
          cases this
      obtain ⟨rfl, b, _, hsm⟩ := k2.sim hk
      obtain ⟨ws, c, hs, hw, hnr⟩ := hP.back _ _ _ _ _ _ _ _ k1 hsm.same ht
      exact ⟨_, _, rfl, k1.move (.locked hl hb1 hs), k2.owned hP hH k1 hk hs ht hw hnr (.inr ⟨hl, hb1, hb, rfl, rfl⟩)⟩
    | enter hk hx =>
      obtain ⟨rfl, _⟩ := hsim.sim hk
      exact ⟨_, _, rfl, by rw [nil_run]; exact hrun.pass hx, hsim.entered hP hH hrun hk hx⟩
    | instr hk hgo hws hst => exact ⟨M, _, rfl, by rw [nil_run]; exact hrun, hsim.instr hP hk hgo hws hst⟩
    | leave hk => exact ⟨M, _, rfl, by rw [nil_run]; exact hrun, hsim.leave hP hk⟩
    | trap hk hx => exact (hsim.no_trap hk hx).elim
    | @drain w ws hb =>
      rw [nil_run]
      by_cases hw : ∀ i, ¬ A i w.1
      · obtain ⟨M1, k1, k2, k3, k4, k5⟩ := hsim.flush_left hP hH (i := i) _ rfl hrun
        rcases k5 with k5 | ⟨u, us, k5, k6⟩
        · have := k2.bufs i
          rw [k5, hb, shared_cons_pub hw] at this
          cases this
        · have e := k2.bufs i
          rw [k5, hb] at e
          obtain rfl := shared_first hw k6 e
          have := k1.move (.drain k5)
          rw [nil_run] at this
          exact ⟨_, _, rfl, this, k2.drain_both hP hH k1 k5 hb hw⟩
      · exact ⟨M, _, rfl, hrun, hsim.drain_right hP hb hw⟩

/-- **C123.** A program with any number of threads does the same after instrumentation as before on processors whose cores have
store buffers, whatever waits how long, if its threads return to where they were called from, do not look at what the snippets
change, and neither look at nor write to the areas of others. -/
theorem C123_same_behaviour (hP : P.Respects D g A M0) (hH : P.Honest D g A M0)
    (hr : ∀ i, Recorded (g i) [] (M0.at_ i)) (hf : ∀ i, (D i).frame (M0.pos i) = none) : P.Refines D A M0 := by
  obtain ⟨Q, hH⟩ := hH
  refine ⟨fun tr M h => ?_, fun tr N h => ?_, fun tr h => ?_, fun tr N i h => ?_⟩
  · obtain ⟨N, h1, h2, h3⟩ := h.forth hP hH hr hf
    refine ⟨N, h1, h3.mem, fun i => ⟨h2 i, ?_⟩⟩
    obtain ⟨_, _, _, hsm⟩ := h3.sim (h2 i)
    exact hsm.same
  · obtain ⟨M, _, e, hrun, hsim⟩ := h.back hP hH hr hf
    cases e
    refine ⟨M, hrun, hsim.mem, fun i => ⟨?_, fun k hk => ?_⟩⟩
    · obtain ⟨_, _, hg⟩ := hsim.thr i
      exact hg.point
    · obtain ⟨_, _, _, hsm⟩ := hsim.sim hk
      exact hsm.same
  · obtain ⟨_, _, e, _⟩ := h.back hP hH hr hf
    cases e
  · obtain ⟨M, _, e, hrun, hsim⟩ := h.back hP hH hr hf
    cases e
    obtain ⟨N', h1, _, h3, _⟩ := hsim.done hP i
    exact ⟨N', h1, h3⟩

end

end Verif
