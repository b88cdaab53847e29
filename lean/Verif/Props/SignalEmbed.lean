import Verif.Props.SignalThreads

/-! Executions without signals are executions with signals, and every honest execution is a handler (C99). -/

namespace Verif

/-- A snippet which runs undisturbed. -/
theorem run_interrupted {sig : Code → State → State → Prop} {w k0 : Code} {s0 : State} :
    ∀ {n : Nat} {k : Code} {s s' : State}, Interrupted sig (fun _ _ => True) w k0 s0 k s →
      run w n k s = some (.exit s') → Interrupted sig (fun _ _ => True) w k0 s0 [] s'
  | 0, _, _, _, _, e => by simp [run] at e
  | n + 1, [], s, s', h, e => by
    simp only [run, Option.some.injEq, Outcome.exit.injEq] at e
    exact e ▸ h
  | n + 1, i :: k, s, s', h, e => by
    simp only [run] at e
    split at e
    · next h1 => exact run_interrupted (.instr h trivial (.next h1)) e
    · next h1 =>
      split at e
      · next h2 => exact run_interrupted (.instr h trivial (.goto h1 h2)) e
      · simp at e
    · simp at e

theorem Exits.interrupted {sig : Code → State → State → Prop} {w : Code} {s s' : State} (h : Exits w s s') :
    Interrupted sig (fun _ _ => True) w w s [] s' := by
  obtain ⟨n, h⟩ := h
  exact run_interrupted .refl h

theorem not_covered {K : W → Prop} {g : W} {c : Code} {u3 t : State} {r : Reg}
    (hK : ∀ x, K x → ¬ InRange x g regionSize) (hg : t.gs = g) (h : InPart K (.loadGs r 0 :: c) u3 t) : False := by
  obtain ⟨u, h1, h2⟩ := h
  cases h1 with
  | cons ht _ _ =>
    have e : u.gsa 0 = g := by rw [State.gsa, ← h2.gs, hg]; simp
    refine hK g (ht (u.gsa 0, 8) (by simp [accesses]) g ?_) ?_
    · rw [e]; simp [InRange]
    · simp [InRange, regionSize]

theorem PushAt.room {K own : W → Prop} {g : W} {t1 t2 : Reg} {tm : Temps} {s1 : State} {rest : Code}
    {l : List W} {ret : W} {Fin : State → State → Prop} (C : CheckCtx K g t1 t2 tm.spOffset s1 ret)
    (hown : ∀ v, ¬ own v) (hl : 32 + 8 * l.length + 8 ≤ regionSize) {k : Code} {t : State}
    (h : PushAt K own g t1 t2 tm s1 rest l ret Fin k t) : RoomFor g k t := by
  have none : ∀ {T : List W}, (∀ v ∈ T, own v) → T = [] := fun h => by
    cases ‹List W› with
    | nil => rfl
    | cons x T => exact (hown x (h x (List.mem_cons_self ..))).elim
  intro r k' e
  cases h with
  | save c h1 h2 =>
    obtain ⟨T, hT, hr⟩ := h2
    obtain rfl := none hT
    exact hr.hasRoom.2 hl
  | loadGs h1 h2 h3 h4 =>
    obtain ⟨T, hT, hr⟩ := h4
    obtain rfl := none hT
    exact hr.hasRoom.2 hl
  | store A => simp [saveRa] at e
  | lea A => simp [saveRa] at e
  | storeGs A => simp [saveRa] at e
  | rest _ u u3 h1 h2 h3 =>
    obtain ⟨T, _, A, _, hr⟩ := h3
    subst e
    exact (not_covered C.apart hr.gs h2).elim

/-- In an undisturbed push the room which there is at its beginning is there when it is needed. -/
theorem IsPush.room {code : Code} {d : Int} {n : Nat} {free : Reg → Prop} (hc : IsPush code d n free)
    {g : W} {l : List W} {s : State} (h : Recorded g l s) (ha : Apart g (s.retAddr d) n s)
    (hl : HasRoom g s) {sig : Code → State → State → Prop} {k : Code} {t : State}
    (hr : Interrupted (fun _ _ _ => False) (fun _ _ => True) code code s k t) :
    Interrupted sig (RoomFor g) code code s k t := by
  rw [h.hasRoom] at hl
  have key : ∀ {k t}, Interrupted (fun _ _ _ => False) (RoomFor g) code code s k t → RoomFor g k t := by
    intro k t hr
    obtain ⟨fl, sm, uo, ht, uf, bs, ts, mid, hf, hm, hok, hcode, rfl, rfl, rfl⟩ := hc
    obtain ⟨c1, tm, t1, t2, b1, b2, he, hs, hn, hfree⟩ := (chosen_push hok ht).out
    have ecode : code = c1 ++ (saveRa t1 t2 tm ++ restoreCode t1 t2 b1 b2) := by
      simp [jitStackPush, hf.notEmpty, hm, stackPushWith, he, body, hs.tmp1, hs.tmp2, hf.notSave,
        hf.noFrame, hs.restore] at hcode
      rw [← hcode]
    rw [← hn] at ha
    generalize hR : s.retAddr (pushDisp sm mid ht) = R at *
    have hKs : Covers (Relies R (s.regs .rsp) (nsave b1 b2))
        (s.regs .rsp - BitVec.ofNat 64 (nsave b1 b2)) (nsave b1 b2) := fun x hx => Or.inr hx
    obtain ⟨s1, p1, a1⟩ := str_save t1 t2 b1 b2 s hs.rsp2 hKs
    have hR1 : s1.regs .rsp + BitVec.ofInt 64 tm.spOffset = R := by
      rw [a1.rsp, hs.off, ret_addr]; exact hR
    have C : CheckCtx (Relies R (s.regs .rsp) (nsave b1 b2)) g t1 t2 tm.spOffset s1 (s.mem.read64 R) :=
      { ne := hs.ne, rsp1 := hs.rsp1, rsp2 := hs.rsp2
        cov := by rw [hR1]; exact fun x hx => Or.inl hx
        apart := ha.relies
        ret := by rw [hR1]; exact read64_of_sep a1.mem ha.ret_save }
    have at0 : PushAt (Relies R (s.regs .rsp) (nsave b1 b2)) (fun _ => False) g t1 t2 tm s1
        (restoreCode t1 t2 b1 b2) l (s.mem.read64 R)
        (fun u u3 => AfterRestore t1 t2 b1 b2 u u3) code s := by
      rw [ecode, hs.code]
      exact .save _ ⟨s, p1, ⟨rfl, rfl, rfl, fun _ _ => rfl⟩⟩ ⟨[], by simp, h⟩
    refine (at0.run (honest := False) ⟨fun h => h.elim, fun h => h.elim, fun h => h.elim, fun _ h => h.elim⟩
      (pops_restore ..) (fun h => h.elim) C (fun u hu _ => ?_) hr).1.room C (fun _ h => h) hl
    obtain ⟨u3, h1, h2⟩ := str_restored (F := Relies R (s.regs .rsp) (nsave b1 b2)) t1 t2 b1 b2 u hs.rsp1
      hs.rsp2 hs.ne (by rw [hu.regs _ hs.rsp1.symm hs.rsp2.symm, a1.rsp]; exact hKs)
    exact ⟨u3, h2, h1⟩
  have both : Interrupted (fun _ _ _ => False) (RoomFor g) code code s k t ∧
      Interrupted sig (RoomFor g) code code s k t := by
    induction hr with
    | refl => exact ⟨.refl, .refl⟩
    | instr _ _ hg ih => exact ⟨.instr ih.1 (key ih.1) hg, .instr ih.2 (key ih.1) hg⟩
    | signal _ h => exact h.elim
  exact both.2

/-- A step without signals is a step with signals, whatever the handlers are. -/
theorem HonestStep.sig {g : W} {c c' : Conf} (hc : c.Good g) (hs : HonestStep g c c')
    (sig : Sigs) (win : Code → Prop) :
    SigStep sig win (fun v => ¬ GuardLike v) g c c' := by
  have hk := hc.step hs
  cases hs with
  | work h1 h2 h3 => exact .work h1 h2 h3
  | call hp ha hroom hng hx =>
    obtain ⟨⟨l, h1, _, _⟩, _⟩ := hc
    exact .call hp ha hng (hp.room h1 ha hroom hx.interrupted)
  | ret h1 h2 h3 hx => exact .ret h1 h2 h3 hx.interrupted
  | enter h1 h2 hx => exact .enter h1 h2 hx.interrupted
  | leave h1 h2 hx => exact .leave h1 h2 hx.interrupted
  | unwind k => exact .unwind k
  | callTrap => exact hk.elim
  | retTrap => exact hk.elim
  | enterTrap => exact hk.elim
  | leaveTrap => exact hk.elim

/-- C99: executions without signals (`HonestRun`, C06 and C16) are executions with signals. -/
theorem C99_embeds {g : W} {l : List W} {s0 : State} (h : Recorded g l s0) (hl : ∀ v ∈ l, ¬ GuardLike v)
    {c : Conf} (hr : HonestRun g (.run s0 [] none) c) (sig : Sigs)
    (win : Code → Prop) : SigRun sig win (fun v => ¬ GuardLike v) g (.run s0 [] none) c := by
  have good : Conf.Good g (.run s0 [] none) := ⟨⟨l, h, List.nil_sublist _, hl⟩, by simp⟩
  have both : c.Good g ∧ SigRun sig win (fun v => ¬ GuardLike v) g (.run s0 [] none) c := by
    induction hr with
    | refl => exact ⟨good, .refl⟩
    | step _ hs ih => exact ⟨ih.1.step hs, .step ih.2 (hs.sig ih.1 sig win)⟩
  exact both.2

/-- C99: every honest execution, started by the kernel in a thread, is a handler in the sense of the
theorems; handlers which are interrupted in turn are not the only ones. -/
theorem C99_any_handler {g : W} {l : List W} {s s1 s2 s' : State} (h : Recorded g l s)
    (hl : ∀ v ∈ l, ¬ GuardLike v) (he : Entered g s s1)
    (hr : HonestRun g (.run s1 [] none) (.run s2 [] none)) {K : W → Prop} (hs : Resumed K s s2 s')
    (win : Code → Prop) (n : Nat) : (Handled win (fun v => ¬ GuardLike v) g (n + 1)).back K s s' :=
  ⟨s1, s2, he, C99_embeds (h.region he.gs he.mem) hl hr _ _, hs⟩

/-- C99: and it may be left at any time. -/
theorem C99_any_jump {g : W} {l q : List W} {s s1 s2 s' : State} {leaf : Option (Reg × W)} (h : Recorded g l s)
    (hl : ∀ v ∈ l, ¬ GuardLike v) (he : Entered g s s1)
    (hr : HonestRun g (.run s1 [] none) (.run s2 q leaf)) (hs : Jumped g s2 s')
    (win : Code → Prop) (n : Nat) : (Handled win (fun v => ¬ GuardLike v) g (n + 1)).away s s' :=
  ⟨s1, s2, q, leaf, he, C99_embeds (h.region he.gs he.mem) hl hr _ _, hs⟩

theorem Interrupted.mono {sig sig' : Code → State → State → Prop} {fits : Code → State → Prop}
    (h : ∀ k s s', sig k s s' → sig' k s s') {w k k' : Code} {s s' : State}
    (hr : Interrupted sig fits w k s k' s') : Interrupted sig' fits w k s k' s' := by
  induction hr with
  | refl => exact .refl
  | instr _ hf hg ih => exact .instr ih hf hg
  | signal _ hs ih => exact .signal ih (h _ _ _ hs)

/-- One class of signals contains the other. -/
structure Sigs.Le (sig sig' : Sigs) : Prop where
  back : ∀ {K s s'}, sig.back K s s' → sig'.back K s s'
  away : ∀ {s s'}, sig.away s s' → sig'.away s s'

theorem SigStep.mono {sig sig' : Sigs} {win : Code → Prop} {own : W → Prop} {g : W} (h : sig.Le sig')
    {c c' : Conf} (hs : SigStep sig win own g c c') : SigStep sig' win own g c c' := by
  have up : ∀ K k s s', At (sig.back K) win g k s s' → At (sig'.back K) win g k s s' := fun K _ _ _ h' =>
    ⟨h.back h'.1, h'.2⟩
  cases hs with
  | work h1 h2 h3 => exact .work h1 h2 h3
  | signal h1 => exact .signal (h.back h1)
  | call h1 h2 h3 h4 => exact .call h1 h2 h3 (h4.mono (up _))
  | callTrap h1 h2 h3 h4 => exact .callTrap h1 h2 h3 (h4.mono (up _))
  | ret h1 h2 h3 h4 => exact .ret h1 h2 h3 (h4.mono (up _))
  | retTrap h1 h2 h3 h4 => exact .retTrap h1 h2 h3 (h4.mono (up _))
  | enter h1 h2 h3 => exact .enter h1 h2 (h3.mono (up _))
  | enterTrap h1 h2 h3 => exact .enterTrap h1 h2 (h3.mono (up _))
  | leave h1 h2 h3 => exact .leave h1 h2 (h3.mono (up _))
  | leaveTrap h1 h2 h3 => exact .leaveTrap h1 h2 (h3.mono (up _))
  | unwind k => exact .unwind k
  | jump j h1 => exact .jump j (h.away h1)
  | callJump j h1 h2 h3 h4 h5 => exact .callJump j h1 h2 h3 (h4.mono (up _)) (h.away h5)
  | retJump j h1 h2 h3 h4 h5 => exact .retJump j h1 h2 h3 (h4.mono (up _)) (h.away h5)
  | enterJump j h1 h2 h3 h4 => exact .enterJump j h1 h2 (h3.mono (up _)) (h.away h4)
  | leaveJump j h1 h2 h3 h4 => exact .leaveJump j h1 h2 (h3.mono (up _)) (h.away h4)

theorem SigRun.mono {sig sig' : Sigs} {win : Code → Prop} {own : W → Prop} {g : W} (h : sig.Le sig')
    {c c' : Conf} (hs : SigRun sig win own g c c') : SigRun sig' win own g c c' := by
  induction hs with
  | refl => exact .refl
  | step _ h1 ih => exact .step ih (h1.mono h)

/-- C99: handlers of some nesting are handlers of any deeper nesting. -/
theorem C99_nesting (win : Code → Prop) (own : W → Prop) (g : W) : ∀ {n m : Nat}, n ≤ m →
    (Handled win own g n).Le (Handled win own g m)
  | 0, _, _ => ⟨fun h => h.elim, fun h => h.elim⟩
  | n + 1, 0, hn => absurd hn (by omega)
  | n + 1, m + 1, hn =>
    have ih := C99_nesting win own g (Nat.le_of_succ_le_succ hn)
    ⟨fun ⟨s1, s2, h1, h2, h3⟩ => ⟨s1, s2, h1, h2.mono ih, h3⟩,
      fun ⟨s1, s2, q, leaf, h1, h2, h3⟩ => ⟨s1, s2, q, leaf, h1, h2.mono ih, h3⟩⟩

end Verif
