import Verif.Spawn

/-!
# C71 and C72: thread creation through the library
-/

namespace Verif

variable {ι : Type} [DecidableEq ι]

/-- Between its creation and the moment it enters the program. -/
def Pc.Starting : Pc → Prop
  | .wrapper _ | .ready _ | .loaded _ _ => True
  | _ => False

/-- C71.  In every schedule, a thread created for a request calls the requested function with the
requested argument once and nothing else, and has called nothing while it is starting. -/
theorem C71_called_once {p p' : SProc ι} {main : ι} (h : p.Initial main) (hr : SRun p p') {t : ι}
    {q : Req} (hq : (p'.thr t).asked = some q) :
    ((p'.thr t).pc.Starting → (p'.thr t).calls = []) ∧
    (¬ (p'.thr t).pc.Starting → (p'.thr t).calls = [q]) := by
  have hc := (h.inv.run hr).calls t
  unfold CallsOk at hc
  unfold Pc.Starting
  cases e : (p'.thr t).pc <;> rw [e] at hc <;> simp only at hc <;>
    first
      | exact ⟨fun _ => hc, fun hn => absurd trivial hn⟩
      | (rw [hq] at hc; exact ⟨fun hn => absurd hn id, fun _ => hc⟩)
      | (rw [hq] at hc; exact absurd hc.2 (by simp))

/-- C71.  When a thread makes a call it has its own shadow stack, which is empty. -/
theorem C71_empty_at_call {p p' p'' : SProc ι} {main : ι} (h : p.Initial main) (hr : SRun p p')
    {t u : ι} (hs : SStep u p' p'') (hc : (p''.thr t).calls ≠ (p'.thr t).calls)
    (ha : (p''.thr t).asked = (p'.thr t).asked) :
    Recorded (p'.thr t).cpu.gs [] ((p'.thr t).state p'.mem) := by
  have he := (h.inv.run hr).empty t
  have hk := (h.inv.run hr).calls t
  -- only `enter` changes the calls of a thread
  cases hs with
  | @enter info fn e =>
    rw [put_thr] at hc
    split at hc
    · rename_i htu
      subst htu
      unfold EmptyOk at he
      rw [e] at he
      exact he
    · exact absurd rfl hc
  | @create q a v c e hvt hv =>
    exfalso
    rw [put_thr] at hc ha
    split at hc
    · rename_i htv
      subst htv
      rw [if_pos rfl] at ha
      unfold CallsOk at hk
      rw [hv] at hk
      rw [hk.2] at ha
      cases ha
    · rw [put_thr] at hc
      split at hc
      · rename_i h1; subst h1; exact hc rfl
      · exact hc rfl
  | malloc _ _ => exact absurd rfl hc
  | free _ _ => exact absurd rfl hc
  | allocFail _ => exact absurd rfl hc
  | initFail _ => exact absurd rfl hc
  | _ =>
    exfalso
    rw [put_thr] at hc
    split at hc
    · rename_i h1; subst h1; exact hc rfl
    · exact hc rfl

/-- C71.  The shadow regions of all threads which have one, ended or not, are disjoint. -/
theorem C71_disjoint {p p' : SProc ι} {main : ι} (h : p.Initial main) (hr : SRun p p') {t u : ι}
    (htu : t ≠ u) (ht : (p'.thr t).pc.Inited) (hu : (p'.thr u).pc.Inited) :
    Sep (p'.thr t).cpu.gs regionSize (p'.thr u).cpu.gs regionSize :=
  (h.inv.run hr).apart t u htu _ _ (.inl ⟨ht, rfl⟩) (.inl ⟨hu, rfl⟩)

/-- C71.  Every thread in the program has a region of its own, got from the allocator. -/
theorem C71_region {p p' : SProc ι} {main : ι} (h : p.Initial main) (hr : SRun p p') {t : ι}
    (ht : (p'.thr t).pc.Inited) : ((p'.thr t).cpu.gs, regionSize) ∈ p'.rt :=
  (h.inv.run hr).mine t _ (.inl ⟨ht, rfl⟩)

/-! ## Memory -/

/-- Bytes which the library has got and not given back. -/
def SProc.held (p : SProc ι) : Nat := (p.rt.map Prod.snd).sum

omit [DecidableEq ι] in
theorem sum_sub {l rt : List (W × Nat)} (hn : l.Nodup) (hs : ∀ b, b ∈ l → b ∈ rt) :
    (l.map Prod.snd).sum ≤ (rt.map Prod.snd).sum := by
  induction l generalizing rt with
  | nil => exact Nat.zero_le _
  | cons b l ih =>
    rw [List.nodup_cons] at hn
    obtain ⟨x, y, rfl⟩ := List.append_of_mem (hs b List.mem_cons_self)
    have : (l.map Prod.snd).sum ≤ ((x ++ y).map Prod.snd).sum := by
      refine ih hn.2 fun c hc => ?_
      have := hs c (List.mem_cons_of_mem _ hc)
      simp only [List.mem_append, List.mem_cons] at this ⊢
      rcases this with h | h | h
      · exact .inl h
      · subst h; exact absurd hc hn.1
      · exact .inr h
    simp only [List.map_append, List.map_cons, List.sum_append, List.sum_cons] at this ⊢
    omega

/-- C72 is false: the memory of threads that have ended is not given back.  In every execution,
eight megabytes stay allocated for every thread that ever got as far as its start routine, ended
or not. -/
theorem C72_refuted_all {p p' : SProc ι} {main : ι} (h : p.Initial main) (hr : SRun p p') {l : List ι}
    (hn : l.Nodup) (hl : ∀ t, t ∈ l → (p'.thr t).pc.Inited) :
    regionSize * l.length ≤ p'.held := by
  have hinv := h.inv.run hr
  have hsum := sum_sub (rt := p'.rt) (l := l.map fun t => ((p'.thr t).cpu.gs, regionSize)) (by
      rw [List.nodup_iff_pairwise_ne, List.pairwise_map]
      rw [List.nodup_iff_pairwise_ne] at hn
      refine List.Pairwise.imp_of_mem ?_ hn
      intro t u ht hu htu heq
      have hs := hinv.apart t u htu _ _ (.inl ⟨hl t ht, rfl⟩) (.inl ⟨hl u hu, rfl⟩)
      injection heq with heq _
      simp only [heq] at hs
      exact hs 0 0 (by decide) (by decide) rfl)
    (fun b hb => by
      obtain ⟨t, ht, rfl⟩ := List.mem_map.1 hb
      exact hinv.mine t _ (.inl ⟨hl t ht, rfl⟩))
  have hlen : ∀ k : List ι, ((k.map fun t => ((p'.thr t).cpu.gs, regionSize)).map Prod.snd).sum =
      regionSize * k.length := by
    intro k
    induction k with
    | nil => rfl
    | cons x k ih =>
      rw [List.map_cons, List.map_cons, List.sum_cons, ih, List.length_cons, Nat.mul_succ]
      omega
  rw [hlen] at hsum
  exact hsum

/-- C72, consequence: in a process that can hold `m` bytes at most `m / 8 MiB` threads can ever
be started, even one after the other. -/
theorem C72_limit {p p' : SProc ι} {main : ι} (h : p.Initial main) (hr : SRun p p') {m : Nat}
    (hm : p'.held ≤ m) {l : List ι} (hn : l.Nodup) (hl : ∀ t, t ∈ l → (p'.thr t).pc = .ended) :
    l.length ≤ m / regionSize := by
  have h1 := C72_refuted_all h hr hn (fun t ht => by rw [hl t ht]; trivial)
  rw [Nat.le_div_iff_mul_le (by decide), Nat.mul_comm]
  exact Nat.le_trans h1 hm

/-- C72.  Nothing the library has got is ever given back. -/
theorem C72_never_freed {p p' : SProc ι} (hr : SRun p p') : ∃ l, p'.rt = l ++ p.rt := by
  induction hr with
  | refl => exact ⟨[], rfl⟩
  | step t _ _ hs ih =>
    obtain ⟨l, ih⟩ := ih
    cases hs with
    | boot _ _ _ => exact ⟨_ :: l, by show _ :: _ = _; rw [ih]; rfl⟩
    | alloc _ _ => exact ⟨_ :: l, by show _ :: _ = _; rw [ih]; rfl⟩
    | init _ _ _ => exact ⟨_ :: l, by show _ :: _ = _; rw [ih]; rfl⟩
    | _ => exact ⟨l, ih⟩

/-- C72, what holds: memory in use is not given back either.  The region of a thread which has
one stays allocated from then on, so that no later allocation can overlap it.  Missing is that it
is given back once the thread has ended, which is false. -/
theorem C72_kept_partial {p p' p'' : SProc ι} {main : ι} (h : p.Initial main) (hr : SRun p p')
    (hr' : SRun p' p'') {t : ι} (ht : (p'.thr t).pc.Inited) :
    ((p'.thr t).cpu.gs, regionSize) ∈ p''.rt ∧
      ∀ a n, p''.Fresh a n → Sep (p'.thr t).cpu.gs regionSize a n := by
  obtain ⟨l, e⟩ := C72_never_freed hr'
  have hm : ((p'.thr t).cpu.gs, regionSize) ∈ p''.rt := by
    rw [e]; exact List.mem_append_right _ (C71_region h hr ht)
  refine ⟨hm, fun a n hf => ?_⟩
  have hs := hf _ (.inl hm)
  first
    | exact hs
    | exact hs.symm
    | exact sep_comm.1 hs

/-! ## A run -/

def spawnStart : SProc Bool where
  mem _ := 0xff
  thr t := { pc := if t then .off else .boot, cpu := ⟨fun _ => 0x7000, 2, 0⟩ }

theorem spawnStart_initial : spawnStart.Initial false :=
  ⟨rfl, rfl, fun u hu => by cases u <;> first | rfl | exact absurd rfl hu, fun u => ⟨rfl, rfl⟩⟩

def spawnReq : Req := ⟨0x401000, 7⟩

theorem fresh_of {l : List (W × Nat)} {a : W} {n : Nat} {p : SProc Bool} (h1 : p.rt = l)
    (h2 : p.user = []) (hn : 0 < n)
    (h : l.all (fun b => decide (0 < b.2) && decide (n ≤ (b.1 - a).toNat) &&
      decide (b.2 ≤ (a - b.1).toNat)) = true) : p.Fresh a n := by
  rintro b (hb | hb)
  · rw [h1] at hb
    rw [List.all_eq_true] at h
    have := h b hb
    simp only [Bool.and_eq_true, decide_eq_true_eq] at this
    exact (sep_iff hn this.1.1).2 ⟨this.1.2, this.2⟩
  · rw [h2] at hb; cases hb

/-- A thread is created, runs its function and ends; its eight megabytes stay allocated. -/
theorem spawn_example : ∃ p, SRun spawnStart p ∧ (p.thr true).asked = some spawnReq ∧
    (p.thr true).pc = .ended ∧ (p.thr true).calls = [spawnReq] ∧
    p.rt = [(0x2000000, regionSize), (0x1800000, infoSize), (0x1000000, regionSize)] := by
  have r1 := (SRun.refl (p := spawnStart)).step false rfl
    (.boot (a := 0x1000000) rfl (fresh_of (l := []) rfl rfl (by decide) rfl) rfl)
  have r2 := r1.step false rfl (.call (q := spawnReq) rfl)
  have r3 := r2.step false rfl (.look rfl)
  have r4 := r3.step false rfl (.alloc (a := 0x1800000) rfl
    (fresh_of rfl rfl (by decide) (by decide)))
  have r5 := r4.step false rfl (.storeArg rfl)
  have r6 := r5.step false rfl (.storeFn rfl)
  have r7 := r6.step false rfl (.create (u := true) (c := ⟨fun _ => 0x9000, 2, 0⟩) rfl (by decide) rfl)
  have r8 := r7.step true rfl (.init (a := 0x2000000) rfl
    (fresh_of rfl rfl (by decide) (by decide)) rfl)
  have r9 := r8.step true rfl (.load rfl)
  have r10 := r9.step true rfl (.enter rfl)
  have r11 := r10.step true rfl (.finish rfl)
  refine ⟨_, r11, rfl, rfl, ?_, rfl⟩
  exact (C71_called_once spawnStart_initial r11 (t := true) (q := spawnReq) rfl).2 id

/-- C71 is false when memory runs out: the program asks for a thread and is killed, where the
real function would have returned an error. -/
theorem C71_refuted : ∃ p p' : SProc Bool, SRun spawnStart p ∧ (p.thr false).pc = .alloc spawnReq ∧
    p.crashed = false ∧ SStep false p p' ∧ p'.crashed = true := by
  have r1 := (SRun.refl (p := spawnStart)).step false rfl
    (.boot (a := 0x1000000) rfl (fresh_of (l := []) rfl rfl (by decide) rfl) rfl)
  have r2 := r1.step false rfl (.call (q := spawnReq) rfl)
  have r3 := r2.step false rfl (.look rfl)
  exact ⟨_, _, r3, rfl, rfl, .allocFail rfl, rfl⟩

/-- C72 is false, concretely: a thread has ended and its region is still allocated. -/
theorem C72_refuted_witness : ∃ p : SProc Bool, SRun spawnStart p ∧ (p.thr true).pc = .ended ∧
    regionSize * 2 + infoSize = p.held := by
  obtain ⟨p, hr, _, he, _, hrt⟩ := spawn_example
  exact ⟨p, hr, he, by unfold SProc.held; rw [hrt]; decide⟩

end Verif
