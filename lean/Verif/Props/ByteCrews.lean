import Verif.ByteCrews
import Verif.Props.ByteTeam

/-! # C120: the inserted bytes protect programs with several threads and signal handlers -/

namespace Verif

variable {m : ProgSem} {frame : Func → Reg} {snip : Func → Ev → Code → State → W → Prop} {avx : Bool}
  {text : W → Byte} {own : W → Prop} {depth : Nat}

/-! ## Places in snippets -/

theorem RipAt.room {b x h : W} {n : Nat} {w k : Code} (hk : RipAt avx text b n x w k) {s : State}
    (hr : LoadsPointer text x → HasRoom h s) : RoomFor h k s := by
  rintro r k' rfl
  obtain ⟨_, _, _, _, _, _, _, pos, _, _, rfl, _, hp⟩ := hk
  cases hp with
  | plain h1 _ _ _ => exact hr ⟨_, _, h1⟩

theorem RipAt.poised {b x : W} {n : Nat} {w k : Code} (hk : RipAt avx text b n x w k) (hb : BeforePointer k) :
    Poised text b n x := by
  obtain ⟨_, _, _, _, a', n', _, pos, h0, hn, rfl, _, hp⟩ := hk
  cases h0
  have at_ : ∀ p q : Nat, b + BitVec.ofNat 64 (p + q) = b + BitVec.ofNat 64 p + BitVec.ofNat 64 q := fun p q => by
    rw [BitVec.ofNat_add, BitVec.add_assoc]
  match k, hb with
  | .lea r c d :: k', hb =>
    cases (show d = 8 from hb)
    cases hp with
    | plain h1 h2 _ h4 =>
      have := h4.le
      exact ⟨⟨pos, by omega, rfl⟩, .lea h1⟩
  | .storeGs 0 r :: .pop r' :: k', _ =>
    cases hp with
    | plain h1 h2 _ h4 =>
      have := h4.le
      cases h4 with
      | plain h5 _ _ _ =>
        rw [at_] at h5
        exact ⟨⟨pos, by omega, rfl⟩, .pop h1 h5⟩
  | [.storeGs 0 r], _ =>
    cases hp with
    | plain h1 h2 _ h4 =>
      have := h4.le
      cases h4 with
      | nil => exact ⟨⟨pos, by omega, rfl⟩, .last h1 (at_ _ _).symm⟩

theorem Job.Ok.fits_of {g : W} {j : Job} (hj : j.Ok own g) {k : Code} {s : State} (h : j.records → RoomFor g k s) :
    j.fits k s := by
  cases hj with
  | call => exact h (by simp [Job.records])
  | _ => trivial

/-! ## The same moment -/

/-- What a handler is doing in memory, and with lists of instructions. -/
inductive HandRel (own : W → Prop) (avx : Bool) (text : W → Byte) (g : W) : Hand → Handler → Prop
  | idle {s t : State} {p : List W} {leaf : Option (Reg × W)} : SameCpu s t →
      HandRel own avx text g (.idle s p leaf) (.idle t p leaf)
  | busy {j : Job} {b : W} {n : Nat} {x : W} {s t : State} {k : Code} : j.Ok own g → SameCpu s t →
      RipAt avx text b n x j.code k → HandRel own avx text g (.busy j b n x s) (.busy j k t)

inductive HandsRel (own : W → Prop) (avx : Bool) (text : W → Byte) (g : W) : List Hand → List Handler → Prop
  | nil : HandsRel own avx text g [] []
  | cons {h : Hand} {h' : Handler} {hs : List Hand} {hs' : List Handler} : HandRel own avx text g h h' →
      HandsRel own avx text g hs hs' → HandsRel own avx text g (h :: hs) (h' :: hs')

theorem HandsRel.mem {g : W} {hs : List Hand} {hs' : List Handler} (h : HandsRel own avx text g hs hs') {y : Handler}
    (hy : y ∈ hs') : ∃ z ∈ hs, HandRel own avx text g z y := by
  induction h with
  | nil => cases hy
  | cons h1 _ ih =>
    rcases List.mem_cons.1 hy with rfl | hy
    · exact ⟨_, List.mem_cons_self .., h1⟩
    · obtain ⟨z, h2, h3⟩ := ih hy
      exact ⟨z, List.mem_cons_of_mem _ h2, h3⟩

theorem HandsRel.length {g : W} {hs : List Hand} {hs' : List Handler} (h : HandsRel own avx text g hs hs') :
    hs.length = hs'.length := by
  induction h with
  | nil => rfl
  | cons _ _ ih => simp [ih]

theorem HandRel.state {g : W} {h : Hand} {h' : Handler} (hr : HandRel own avx text g h h') : SameCpu h.state h'.state := by
  cases hr <;> assumption

theorem HandRel.keeps {g : W} {h : Hand} {h' : Handler} (hr : HandRel own avx text g h h') (x : W) :
    h.keeps x = h'.keeps x := by cases hr <;> rfl

theorem HandRel.kept {g : W} {h : Hand} {h' : Handler} (hr : HandRel own avx text g h h') : h.kept = h'.kept := by
  cases hr <;> rfl

theorem HandRel.shut {g : W} {h : Hand} {h' : Handler} (hr : HandRel own avx text g h h') (hs : h'.shut) : h.shut text := by
  cases hr with
  | idle => exact hs
  | busy _ _ hk => exact hk.poised hs

theorem TaskRel.state {p : Task} {w : Worker} (h : TaskRel avx text p w) : SameCpu p.state w.state := by
  cases h <;> assumption

theorem TaskRel.keeps {p : Task} {w : Worker} (h : TaskRel avx text p w) (x : W) : p.keeps x = w.keeps x := by
  cases h <;> rfl

theorem TaskRel.shut {p : Task} {w : Worker} (h : TaskRel avx text p w) {g : W} {mem : Mem} (hs : w.shut g mem) :
    p.shut text g mem := by
  cases h with
  | own => exact hs
  | busy _ hk => exact Or.imp (fun hb => hk.poised hb) id hs

/-- What a thread is doing in memory, and with lists of instructions. -/
structure CrewRel (own : W → Prop) (avx : Bool) (text : W → Byte) (g : W) (c : Gang) (d : Crew) : Prop where
  prog : TaskRel avx text c.prog d.prog
  hands : HandsRel own avx text g c.hands d.hands

theorem CrewRel.state {g : W} {c : Gang} {d : Crew} (h : CrewRel own avx text g c d) : SameCpu c.state d.state := by
  obtain ⟨p, hs⟩ := c
  obtain ⟨w, hs'⟩ := d
  obtain ⟨h1, h2⟩ := h
  cases h2 with
  | nil => exact h1.state
  | cons h3 _ => exact h3.state

theorem CrewRel.keeps {g : W} {c : Gang} {d : Crew} (h : CrewRel own avx text g c d) {x : W} (hx : d.keeps x) : c.keeps x := by
  rcases hx with hx | ⟨y, hy, hx⟩
  · exact .inl (by rw [h.prog.keeps]; exact hx)
  · obtain ⟨z, h1, h2⟩ := h.hands.mem hy
    exact .inr ⟨z, h1, by rw [h2.keeps]; exact hx⟩

theorem CrewRel.unharmed {g : W} {c : Gang} {d : Crew} (h : CrewRel own avx text g c d) {mem mem' : Mem}
    (hu : c.Unharmed text g mem mem') : d.Unharmed g mem mem' where
  keeps x hx := hu.keeps x (h.keeps hx)
  shut hs := hu.shut (by
    rcases hs with hs | ⟨y, hy, hs⟩
    · exact .inl (h.prog.shut hs)
    · obtain ⟨z, h1, h2⟩ := h.hands.mem hy
      exact .inr ⟨z, h1, h2.shut hs⟩)

theorem CrewRel.rest {g : W} {p : Task} {w : Worker} {hs : List Hand} {hs' : List Handler} (hp : TaskRel avx text p w)
    (hh : HandsRel own avx text g hs hs') {mem mem' : Mem} (hu : Gang.Unharmed text ⟨p, hs⟩ g mem mem') :
    Crew.Unharmed ⟨w, hs'⟩ g mem mem' := CrewRel.unharmed (c := ⟨p, hs⟩) (d := ⟨w, hs'⟩) ⟨hp, hh⟩ hu

theorem Crew.unharmed_refl {d : Crew} {g : W} {mem : Mem} : d.Unharmed g mem mem := ⟨fun _ _ => rfl, fun _ _ _ => rfl⟩

/-! ## One thread -/

/-- Over labels. -/
inductive Silent (m : ProgSem) (frame : Func → Reg) (snip : Func → Ev → Code → State → W → Prop) (own : W → Prop)
    (depth : Nat) (g : W) (mem : Mem) : Crew → Crew → Prop
  | refl {d : Crew} : Silent m frame snip own depth g mem d d
  | step {d d1 d2 : Crew} : CrewStep m frame snip own depth g mem d mem d1 → d1.prog.acts = d.prog.acts →
      Silent m frame snip own depth g mem d1 d2 → Silent m frame snip own depth g mem d d2

theorem roomFor_bind {g : W} {l : Label} {k : Code} {s : State} : RoomFor g (.bind l :: k) s := nofun

theorem silent_prog {g : W} {mem : Mem} {w k k' : Code} {ev : Ev} {s0 t : State} {a : XAct} {as : List XAct}
    (hk : Skips k k') : ∃ t', SameCpu t t' ∧
      Silent m frame snip own depth g mem ⟨.busy w k ev s0 t a as, []⟩ ⟨.busy w k' ev s0 t' a as, []⟩ := by
  induction hk generalizing t with
  | refl => exact ⟨t, .refl _, .refl⟩
  | bind _ ih =>
    obtain ⟨t', h1, h2⟩ := ih (t := t.over mem)
    exact ⟨t', fun m' => h1 m', .step (.instr (s' := t.over mem) (fun _ => roomFor_bind) (.next rfl)) rfl h2⟩

theorem silent_hand {g : W} {mem : Mem} {p : Worker} {hs : List Handler} {j : Job} {k k' : Code} {t : State}
    (hj : j.Ok own g) (hk : Skips k k') : ∃ t', SameCpu t t' ∧
      Silent m frame snip own depth g mem ⟨p, .busy j k t :: hs⟩ ⟨p, .busy j k' t' :: hs⟩ := by
  induction hk generalizing t with
  | refl => exact ⟨t, .refl _, .refl⟩
  | bind _ ih =>
    obtain ⟨t', h1, h2⟩ := ih (t := t.over mem)
    exact ⟨t', fun m' => h1 m', .step (.instrH (s' := t.over mem) (hj.fits_of fun _ => roomFor_bind) (.next rfl)
      Crew.unharmed_refl) rfl h2⟩

/-- A step in memory is one of the list, if labels are skipped before. -/
theorem gang_sim {g : W} (hu : ByteUndefined snip avx text)
    (hj : avx = true → ∀ (j : Job) a n, j.Ok own g → Inserted text j.code a n → .illegal ∈ j.code →
      atByte j.code (fun i => text (a + BitVec.ofNat 64 n + BitVec.ofNat 64 i)) = some .undefined)
    {mem mem' : Mem} {c c' : Gang} {d : Crew} (hr : CrewRel own avx text g c d)
    (hs : GangStep m frame snip avx text own depth g mem c mem' c') :
    ∃ d1 d', Silent m frame snip own depth g mem d d1 ∧ CrewRel own avx text g c d1 ∧
      CrewStep m frame snip own depth g mem d1 mem' d' ∧ CrewRel own avx text g c' d' := by
  obtain ⟨w, hs'⟩ := d
  obtain ⟨hp, hh⟩ := hr
  have hr : CrewRel own avx text g c ⟨w, hs'⟩ := ⟨hp, hh⟩
  cases hs with
  | own ht =>
    cases hp with
    | own hc =>
      cases hh
      rw [hc mem] at ht
      exact ⟨_, _, .refl, hr, .own (threadStep_mono ht), .own (.refl _), .nil⟩
  | begin h1 h2 h3 h4 =>
    cases hp with
    | own hc =>
      cases hh
      have hb := RipAt.begin h3 fun ha hi => hu ha _ _ _ _ _ _ _ h2 h3 hi
      rw [hc mem] at h2 h4 ⊢
      exact ⟨_, _, .refl, hr, .begin h1 h2 h4, .busy hc hb, .nil⟩
  | instr h0 h1 h2 h3 =>
    cases hp with
    | busy hc hk =>
      cases hh
      obtain ⟨hn, ⟨rfl, _⟩ | ⟨_, i, k1, h5, ⟨_, h6⟩ | ⟨x1, s1, k', h6, h7, h8⟩⟩⟩ := hk.back (State.over _ mem)
      · exact absurd h1 (inside_end hn)
      · rw [h6] at h2; cases h2
      rw [h7] at h2; cases h2
      obtain ⟨t', k2, k3⟩ := silent_prog (m := m) (frame := frame) (snip := snip) (own := own) (depth := depth) (g := g)
        (mem := mem) h5
      have hc' : SameCpu _ t' := fun m' => (hc m').trans (k2 m')
      rw [hc' mem] at h6 h0
      exact ⟨_, _, k3, ⟨.busy hc' (hk.skip h5), .nil⟩, .instr (fun e => (hk.skip h5).room (h0 e)) h6, .busy (.refl _) h8, .nil⟩
  | @finish _ _ _ _ s _ _ h1 =>
    cases hp with
    | busy hc hk =>
      cases hh
      obtain ⟨hn, ⟨_, h5⟩ | ⟨h5, _⟩⟩ := hk.back s
      · obtain ⟨t', k2, k3⟩ := silent_prog (m := m) (frame := frame) (snip := snip) (own := own) (depth := depth) (g := g)
          (mem := mem) h5
        have hc' : SameCpu s t' := fun m' => (hc m').trans (k2 m')
        exact ⟨_, _, k3, ⟨.busy hc' (hk.skip h5), .nil⟩, .finish h1, .own hc', .nil⟩
      · exact absurd h5 (inside_end hn)
  | signal h1 h2 h3 h4 =>
    rw [hr.state mem] at h3
    exact ⟨_, _, .refl, hr, .signal (hh.length ▸ h1) (hp.acts ▸ h2) h3 (hr.unharmed h4), hp, .cons (.idle (.refl _)) hh⟩
  | work h1 h2 h3 h4 =>
    cases hh with
    | cons h5 h6 =>
      cases h5 with
      | idle hc =>
        have hg := congrArg State.gs (hc mem)
        have hq := congrArg State.regs (hc mem)
        exact ⟨_, _, .refl, hr, .work (h1.trans hg) h2 (fun r v e => (h3 r v e).trans (congrFun hq r))
          (CrewRel.rest hp h6 h4), hp, .cons (.idle (.refl _)) h6⟩
  | unwind n =>
    cases hh with
    | cons h5 h6 =>
      cases h5 with
      | idle hc => exact ⟨_, _, .refl, hr, .unwind n, hp, .cons (.idle hc) h6⟩
  | beginH h1 h2 h3 =>
    cases hh with
    | cons h5 h6 =>
      cases h5 with
      | idle hc =>
        have hb := RipAt.begin h3 fun ha hi => hj ha _ _ _ h1 h3 hi
        rw [hc mem] at h2
        exact ⟨_, _, .refl, hr, .beginH h1 h2, hp, .cons (.busy h1 hc hb) h6⟩
  | instrH h0 h1 h2 h3 h4 =>
    cases hh with
    | cons h5 h6 =>
      cases h5 with
      | busy hok hc hk =>
        obtain ⟨hn, ⟨rfl, _⟩ | ⟨_, i, k1, e5, ⟨_, e6⟩ | ⟨x1, s1, k', e6, e7, e8⟩⟩⟩ := hk.back (State.over _ mem)
        · exact absurd h1 (inside_end hn)
        · rw [e6] at h2; cases h2
        rw [e7] at h2; cases h2
        obtain ⟨t', k2, k3⟩ := silent_hand (m := m) (frame := frame) (snip := snip) (depth := depth)
          (mem := mem) hok e5
        have hc' : SameCpu _ t' := fun m' => (hc m').trans (k2 m')
        rw [hc' mem] at e6 h0
        exact ⟨_, _, k3, ⟨hp, .cons (.busy hok hc' (hk.skip e5)) h6⟩,
          .instrH (hok.fits_of fun e => (hk.skip e5).room (h0 e)) e6 (CrewRel.rest hp h6 h4), hp,
          .cons (.busy hok (.refl _) e8) h6⟩
  | @finishH _ _ _ _ _ s =>
    cases hh with
    | cons h5 h6 =>
      cases h5 with
      | busy hok hc hk =>
        obtain ⟨hn, ⟨_, e5⟩ | ⟨e5, _⟩⟩ := hk.back s
        · obtain ⟨t', k2, k3⟩ := silent_hand (m := m) (frame := frame) (snip := snip) (depth := depth)
            (mem := mem) hok e5
          have hc' : SameCpu s t' := fun m' => (hc m').trans (k2 m')
          exact ⟨_, _, k3, ⟨hp, .cons (.busy hok hc' (hk.skip e5)) h6⟩, .finishH, hp, .cons (.idle hc') h6⟩
        · exact absurd e5 (inside_end hn)
  | resume =>
    cases hh with
    | cons h5 h6 =>
      cases h5 with
      | idle hc => exact ⟨_, _, .refl, hr, .resume, hp, h6⟩
  | jump n h1 h2 =>
    cases hh with
    | cons h5 h6 =>
      cases h5 with
      | idle hc =>
        cases h6 with
        | cons h7 h8 =>
          rw [hc mem] at h1
          refine ⟨_, _, .refl, hr, .jump n h1 (CrewRel.rest hp h8 h2), hp, .cons ?_ h8⟩
          rw [h7.kept]
          exact .idle (.refl _)
  | leave h1 h2 =>
    cases hh with
    | cons h5 h6 =>
      cases h5 with
      | idle hc =>
        cases h6
        cases hp with
        | own hc' =>
          rw [hc mem] at h1
          exact ⟨_, _, .refl, hr, .leave h1 h2, .own (.refl _), .nil⟩
  | escape h1 h2 h3 =>
    cases hh with
    | cons h5 h6 =>
      cases h5 with
      | idle hc =>
        cases h6
        cases hp with
        | busy hc' hk =>
          rw [hc mem] at h1
          exact ⟨_, _, .refl, hr, .escape h1 h2 h3, .own (.refl _), .nil⟩

theorem gang_stop {g : W} {mem : Mem} {c : Gang} {d : Crew} {q : XProc} (hr : CrewRel own avx text g c d)
    (hs : GangStop m frame avx text g mem c q) : ∃ d1, Silent m frame snip own depth g mem d d1 ∧
      CrewRel own avx text g c d1 ∧ CrewStop m frame snip g mem d1 q := by
  obtain ⟨w, hs'⟩ := d
  obtain ⟨hp, hh⟩ := hr
  have hr : CrewRel own avx text g c ⟨w, hs'⟩ := ⟨hp, hh⟩
  cases hs with
  | own ht hq =>
    cases hp with
    | own hc =>
      cases hh
      rw [hc mem] at ht
      exact ⟨_, .refl, hr, .own (threadStep_mono ht) hq⟩
  | @accept _ _ _ s _ _ h1 =>
    cases hp with
    | busy hc hk =>
      cases hh
      obtain ⟨hn, ⟨_, h5⟩ | ⟨h5, _⟩⟩ := hk.back s
      · obtain ⟨t', k2, k3⟩ := silent_prog (m := m) (frame := frame) (snip := snip) (own := own) (depth := depth) (g := g)
          (mem := mem) h5
        have hc' : SameCpu s t' := fun m' => (hc m').trans (k2 m')
        exact ⟨_, k3, ⟨.busy hc' (hk.skip h5), .nil⟩, .accept h1⟩
      · exact absurd h5 (inside_end hn)
  | sigill h1 h2 =>
    cases hp with
    | busy hc hk =>
      cases hh
      obtain ⟨hn, ⟨rfl, _⟩ | ⟨_, i, k1, h5, ⟨rfl, h6⟩ | ⟨x1, s1, k', h6, h7, h8⟩⟩⟩ := hk.back (State.over _ mem)
      · exact absurd h1 (inside_end hn)
      · obtain ⟨t', k2, k3⟩ := silent_prog (m := m) (frame := frame) (snip := snip) (own := own) (depth := depth) (g := g)
          (mem := mem) h5
        exact ⟨_, k3, ⟨.busy (fun m' => (hc m').trans (k2 m')) (hk.skip h5), .nil⟩, .trap rfl⟩
      · rw [h7] at h2; cases h2
  | sigillH h1 h2 =>
    cases hh with
    | cons h5 h6 =>
      cases h5 with
      | busy hok hc hk =>
        obtain ⟨hn, ⟨rfl, _⟩ | ⟨_, i, k1, e5, ⟨rfl, e6⟩ | ⟨x1, s1, k', e6, e7, e8⟩⟩⟩ := hk.back (State.over _ mem)
        · exact absurd h1 (inside_end hn)
        · obtain ⟨t', k2, k3⟩ := silent_hand (m := m) (frame := frame) (snip := snip) (depth := depth)
            (mem := mem) hok e5
          exact ⟨_, k3, ⟨hp, .cons (.busy hok (fun m' => (hc m').trans (k2 m')) (hk.skip e5)) h6⟩, .trapH rfl⟩
        · rw [e7] at h2; cases h2

theorem RipAt.not_astray {b x : W} {n : Nat} {w k : Code} (hk : RipAt avx text b n x w k) {mem : Mem} {s : State} :
    ¬ Astray avx text mem b n x s := by
  rintro ⟨h1, h2⟩
  obtain ⟨hn, ⟨rfl, _⟩ | ⟨_, i, k1, h5, ⟨_, h6⟩ | ⟨x1, s1, k', h6, h7, h8⟩⟩⟩ := hk.back (s.over mem)
  · exact absurd h1 (inside_end hn)
  · rcases h2 with h2 | ⟨_, _, h2, _⟩ <;> rw [h6] at h2 <;> cases h2
  · rcases h2 with h2 | ⟨_, _, h2, h3, h4⟩ <;> rw [h7] at h2 <;> cases h2
    exact h8.rip.elim h3 h4

theorem gang_stray {g : W} {mem : Mem} {c : Gang} {d : Crew} (hr : CrewRel own avx text g c d) :
    ¬ GangStray avx text mem c := by
  obtain ⟨w, hs'⟩ := d
  obtain ⟨hp, hh⟩ := hr
  intro hs
  cases hs with
  | prog h =>
    cases hp with
    | busy _ hk => exact hk.not_astray h
  | hand h =>
    cases hh with
    | cons h5 _ =>
      cases h5 with
      | busy _ _ hk => exact hk.not_astray h

/-! ## Processes -/

variable {g : Nat → W}

/-- The threads of a process in memory, and of one with lists of instructions. -/
def GangsRel (own : W → Prop) (avx : Bool) (text : W → Byte) (g : Nat → W) (T : Nat → Option Gang)
    (U : Nat → Option Crew) : Prop :=
  ∀ i, (T i = none ∧ U i = none) ∨ ∃ c d, T i = some c ∧ U i = some d ∧ CrewRel own avx text (g i) c d

theorem GangsRel.get {T : Nat → Option Gang} {U : Nat → Option Crew} (h : GangsRel own avx text g T U) {i : Nat} {c : Gang}
    (hi : T i = some c) : ∃ d, U i = some d ∧ CrewRel own avx text (g i) c d := by
  rcases h i with ⟨h1, _⟩ | ⟨c', d, h1, h2, h3⟩
  · rw [hi] at h1; cases h1
  · rw [hi] at h1; cases h1; exact ⟨d, h2, h3⟩

theorem GangsRel.put {T : Nat → Option Gang} {U : Nat → Option Crew} (h : GangsRel own avx text g T U) {i : Nat} {c : Gang}
    {d : Crew} (hp : CrewRel own avx text (g i) c d) :
    GangsRel own avx text g (setAt T i (some c)) (setAt U i (some d)) := by
  intro j
  by_cases hj : j = i
  · subst hj
    exact .inr ⟨c, d, by simp [setAt], by simp [setAt], hp⟩
  · simpa [setAt, hj] using h j

theorem GangsRel.stay {T : Nat → Option Gang} {U : Nat → Option Crew} (h : GangsRel own avx text g T U) {i : Nat} {c : Gang}
    {d : Crew} (hc : T i = some c) (hp : CrewRel own avx text (g i) c d) :
    GangsRel own avx text g T (setAt U i (some d)) := by
  have := h.put hp
  rwa [show setAt T i (some c) = T by
    funext j
    by_cases hj : j = i
    · simp [setAt, hj, hc]
    · simp [setAt, hj]] at this

theorem GangsRel.drop {T : Nat → Option Gang} {U : Nat → Option Crew} (h : GangsRel own avx text g T U) {i : Nat} :
    GangsRel own avx text g (setAt T i none) (setAt U i none) := by
  intro j
  by_cases hj : j = i
  · exact .inl ⟨by simp [setAt, hj], by simp [setAt, hj]⟩
  · simpa [setAt, hj] using h j

theorem GangsRel.others {T : Nat → Option Gang} {U : Nat → Option Crew} (h : GangsRel own avx text g T U) {i : Nat}
    {mem mem' : Mem} (ho : Gang.Others g T i mem mem') : Apiece g U i mem mem' := by
  intro j d hj hd x hx
  rcases h j with ⟨_, h2⟩ | ⟨c, d', h1, h2, h3⟩
  · rw [hd] at h2; cases h2
  · rw [hd] at h2; cases h2
    exact ho j c hj h1 x (hx.imp id h3.keeps)

/-- What has disappeared on the one way has disappeared on the other. -/
def NoMore (m : ProgSem) (l l' : List CrewsProc) : Prop :=
  (∀ j v, CrewsLost m l j v → CrewsLost m l' j v) ∧ ∀ j v, CrewsCut m l j v → CrewsCut m l' j v

theorem setAt_idem {α : Type _} {T : Nat → Option α} {i : Nat} {c : α} (h : T i = some c) : setAt T i (some c) = T := by
  funext j
  by_cases hj : j = i
  · simp [setAt, hj, h]
  · simp [setAt, hj]

theorem silent_trail {mem0 mem : Mem} {U : Nat → Option Crew} {qs : List CrewsProc} {i : Nat} {d d1 : Crew}
    (hk : Silent m frame snip own depth (g i) mem d d1)
    (h : Trail (CrewsStep m frame snip own depth g) (.run mem0 fun _ => none) (.run mem U :: qs))
    (hi : U i = some d) : ∃ qs',
      Trail (CrewsStep m frame snip own depth g) (.run mem0 fun _ => none) (.run mem (setAt U i (some d1)) :: qs') ∧
      NoMore m (.run mem (setAt U i (some d1)) :: qs') (.run mem U :: qs) := by
  induction hk generalizing U qs with
  | refl =>
    rw [setAt_idem hi]
    exact ⟨qs, h, fun _ _ => id, fun _ _ => id⟩
  | @step d d1 d2 hs ha _ ih =>
    obtain ⟨qs', h1, h2⟩ := ih (.step h (.step hi hs fun _ _ _ _ _ _ => rfl)) (by simp [setAt])
    have he : setAt (setAt U i (some d1)) i (some d2) = setAt U i (some d2) := by
      funext j
      by_cases hj : j = i <;> simp [setAt, hj]
    rw [he] at h1 h2
    have same : ∀ {j c c'}, U j = some c → setAt U i (some d1) j = some c' → c'.prog.acts = c.prog.acts := by
      intro j c c' e1 e2
      by_cases hj : j = i
      · subst hj
        rw [hi] at e1
        simp only [setAt, if_true] at e2
        cases e1; cases e2
        exact ha
      · simp only [setAt, hj, if_false] at e2
        rw [e1] at e2; cases e2; rfl
    refine ⟨qs', h1, fun j v hl => ?_, fun j v hl => ?_⟩
    · rcases h2.1 j v hl with h4 | h4
      · obtain ⟨_, _, _, _, p, p', up, e1, e2, e3, e4, e5, x, hx, _⟩ := h4
        cases e1; cases e2
        have := congrArg List.length e5
        rw [same e3 e4] at this
        simp at this
        subst this
        cases hx
      · exact h4
    · rcases h2.2 j v hl with h4 | h4
      · obtain ⟨_, _, _, _, p, p', a, up, e1, e2, e3, e4, e5, _⟩ := h4
        cases e1; cases e2
        have := congrArg List.length e5
        rw [same e3 e4] at this
        simp at this
        omega
      · exact h4

theorem gangs_sim (hu : GangsUndefined snip own g avx text) {mem0 mem : Mem} {T : Nat → Option Gang}
    {U : Nat → Option Crew} {p' : GangsProc} {qs : List CrewsProc} (hr : GangsRel own avx text g T U)
    (h : Trail (CrewsStep m frame snip own depth g) (.run mem0 fun _ => none) (.run mem U :: qs))
    (hs : GangsStep m frame snip avx text own depth g (.run mem T) p') :
    ∃ U1 qs1, GangsRel own avx text g T U1 ∧
      Trail (CrewsStep m frame snip own depth g) (.run mem0 fun _ => none) (.run mem U1 :: qs1) ∧
      NoMore m (.run mem U1 :: qs1) (.run mem U :: qs) ∧
      ((∃ mem' T' U', p' = .run mem' T' ∧ GangsRel own avx text g T' U' ∧
          CrewsStep m frame snip own depth g (.run mem U1) (.run mem' U')) ∨
        ∃ i q, p' = .stopped i q ∧ CrewsStep m frame snip own depth g (.run mem U1) (.stopped i q)) := by
  cases hs with
  | step hT ht ho =>
    obtain ⟨d, hU, hd⟩ := hr.get hT
    obtain ⟨d1, d', k1, k2, k3, k4⟩ := gang_sim hu.1 (fun ha j a n => hu.2 ha _ j a n) hd ht
    obtain ⟨qs1, k5, k6⟩ := silent_trail k1 h hU
    have hr1 := hr.stay hT k2
    refine ⟨_, qs1, hr1, k5, k6, .inl ⟨_, _, _, rfl, hr1.put k4, .step (by simp [setAt]) k3 (hr1.others ho)⟩⟩
  | stop hT ht =>
    obtain ⟨d, hU, hd⟩ := hr.get hT
    obtain ⟨d1, k1, k2, k3⟩ := gang_stop (snip := snip) (depth := depth) hd ht
    obtain ⟨qs1, k5, k6⟩ := silent_trail k1 h hU
    exact ⟨_, qs1, hr.stay hT k2, k5, k6, .inr ⟨_, _, rfl, .stop (by simp [setAt]) k3⟩⟩
  | stray hT ht =>
    obtain ⟨d, hU, hd⟩ := hr.get hT
    exact (gang_stray hd ht).elim
  | @spawn _ _ i _ f p hT h1 h2 =>
    have hU : U i = none := by
      rcases hr i with ⟨_, h⟩ | ⟨_, _, h, _⟩
      · exact h
      · rw [hT] at h; cases h
    exact ⟨U, qs, hr, h, ⟨fun _ _ => id, fun _ _ => id⟩,
      .inl ⟨_, _, _, rfl, hr.put ⟨.own (.refl _), .nil⟩, .spawn f p hU h1 (hr.others h2)⟩⟩
  | exit hT =>
    obtain ⟨⟨w, hs⟩, hU, hw, hh⟩ := hr.get hT
    cases hh
    cases hw with
    | own hc => exact ⟨U, qs, hr, h, ⟨fun _ _ => id, fun _ _ => id⟩, .inl ⟨_, _, _, rfl, hr.drop, .exit hU⟩⟩

/-- An execution in memory is one of the lists, if labels are skipped. -/
theorem gangs_trail (hu : GangsUndefined snip own g avx text) {mem0 : Mem} {p : GangsProc} {ps : List GangsProc}
    (h : Trail (GangsStep m frame snip avx text own depth g) (.run mem0 fun _ => none) (p :: ps)) :
    (∃ mem T U qs, p = .run mem T ∧ GangsRel own avx text g T U ∧
      Trail (CrewsStep m frame snip own depth g) (.run mem0 fun _ => none) (.run mem U :: qs) ∧
      (∀ j v, CrewsLost m (.run mem U :: qs) j v → GangsLost m (p :: ps) j v) ∧
      ∀ j v, CrewsCut m (.run mem U :: qs) j v → GangsCut m (p :: ps) j v) ∨
    ∃ i q qs, p = .stopped i q ∧
      Trail (CrewsStep m frame snip own depth g) (.run mem0 fun _ => none) (.stopped i q :: qs) := by
  generalize hq : p :: ps = l at h
  induction h generalizing p ps with
  | start =>
    cases hq
    exact .inl ⟨mem0, _, fun _ => none, [], rfl, fun _ => .inl ⟨rfl, rfl⟩, .start, fun _ _ h => h, fun _ _ h => h⟩
  | step _ hs ih =>
    cases hq
    rcases ih rfl with ⟨mem, T, U, qs, rfl, hr, ht, hl, hc⟩ | ⟨i, q, qs, rfl, _⟩
    · obtain ⟨U1, qs1, k1, k2, k3, ⟨mem', T', U', rfl, k4, k5⟩ | ⟨i, q, rfl, k5⟩⟩ := gangs_sim hu hr ht hs
      · refine .inl ⟨mem', T', U', _, rfl, k4, .step k2 k5, fun j v h => ?_, fun j v h => ?_⟩
        · rcases h with h | h
          · obtain ⟨_, _, _, _, w, w', up, e1, e2, e3, e4, e5, e6⟩ := h
            cases e1; cases e2
            obtain h | ⟨p, w1, h1, h2, h3⟩ := k1 j
            · rw [h.2] at e3; cases e3
            obtain h | ⟨p', w1', h1', h2', h3'⟩ := k4 j
            · rw [h.2] at e4; cases e4
            rw [e3] at h2; cases h2
            rw [e4] at h2'; cases h2'
            exact .inl ⟨_, _, _, _, p, p', up, rfl, rfl, h1, h1', by rw [h3.prog.acts, h3'.prog.acts, e5], e6⟩
          · exact .inr (hl j v (k3.1 j v h))
        · rcases h with h | h
          · obtain ⟨_, _, _, _, w, w', a, up, e1, e2, e3, e4, e5, e6⟩ := h
            cases e1; cases e2
            obtain h | ⟨p, w1, h1, h2, h3⟩ := k1 j
            · rw [h.2] at e3; cases e3
            obtain h | ⟨p', w1', h1', h2', h3'⟩ := k4 j
            · rw [h.2] at e4; cases e4
            rw [e3] at h2; cases h2
            rw [e4] at h2'; cases h2'
            exact .inl ⟨_, _, _, _, p, p', a, up, rfl, rfl, h1, h1', by rw [h3.prog.acts, h3'.prog.acts, e5], e6⟩
          · exact .inr (hc j v (k3.2 j v h))
      · exact .inr ⟨i, q, _, rfl, .step k2 k5⟩
    · cases hs

/-- **C120.** If the program with threads and signal handlers is protected when it is executed with lists of
instructions, it is protected when it is executed from memory, and signals arrive in front of any instruction of
the bytes. -/
theorem C120_bytes (hu : GangsUndefined snip own g avx text) (hp : CrewsProtected m frame snip own depth g) :
    GangsProtected m frame snip avx text own depth g where
  recorded mem0 mem T ps i s a as h hT hd := by
    rcases gangs_trail hu h with ⟨_, _, U, qs, e, hr, ht, _⟩ | ⟨_, _, _, e, _⟩
    · cases e
      obtain ⟨⟨w, hs⟩, hU, hw, hh⟩ := hr.get hT
      cases hh
      cases hw with
      | own hc =>
        obtain ⟨l, h1, h2⟩ := hp.recorded _ _ _ _ _ _ _ _ ht hU hd
        rw [← hc mem] at h1
        refine ⟨l, h1, fun x hx hs => ?_⟩
        exact (h2 x hx hs).imp id fun ⟨h3, h4⟩ => ⟨h3, (congrFun (congrArg State.regs (hc mem)) _).trans h4⟩
    · cases e
  unchecked mem0 ps i v h := by
    rcases gangs_trail hu h with ⟨_, _, U, qs, e, hr, ht, _⟩ | ⟨_, _, _, e, ht⟩
    · cases e
    · cases e
      exact hp.unchecked _ _ i v ht
  accepted mem0 mem T ps i v h hs := by
    rcases gangs_trail hu h with ⟨_, _, U, qs, e, hr, ht, hl, hcut⟩ | ⟨_, _, _, e, _⟩
    · cases e
      obtain ⟨U1, qs1, k1, k2, k3, ⟨_, _, _, e, _⟩ | ⟨_, _, e, k5⟩⟩ := gangs_sim hu hr ht hs
      · cases e
      cases e
      rcases hp.accepted _ _ _ _ _ _ k2 k5 with h1 | ⟨w, h1, h2⟩ | h1 | h1 | h1
      · exact .inl h1
      · obtain h | ⟨p, w1, h3, h4, h5⟩ := k1 i
        · rw [h.2] at h1; cases h1
        rw [h1] at h4; cases h4
        exact .inr (.inl ⟨p, h3, by rw [h5.prog.acts]; exact h2⟩)
      · exact .inr (.inr (.inl (hl i v (k3.1 i v h1))))
      · exact .inr (.inr (.inr (.inl (hcut i v (k3.2 i v h1)))))
      · exact .inr (.inr (.inr (.inr h1)))
    · cases e
  quiet mem0 mem T ps i w a as l h hT ha hra hl hg hs := by
    rcases gangs_trail hu h with ⟨_, _, U, qs, e, hr, ht, _⟩ | ⟨_, _, _, e, _⟩
    · cases e
      obtain ⟨U1, qs1, k1, k2, k3, ⟨_, _, _, e, _⟩ | ⟨_, _, e, k5⟩⟩ := gangs_sim hu hr ht hs
      · cases e
      cases e
      obtain ⟨w', hU, hw⟩ := k1.get hT
      exact hp.quiet _ _ _ _ _ _ _ _ l k2 hU (hw.prog.acts ▸ ha) (hw.prog.base mem ▸ hra) (hw.prog.base mem ▸ hl) hg k5
    · cases e
  handlers mem0 mem T ps i s acts y hs h hT hs' := by
    rcases gangs_trail hu h with ⟨_, _, U, qs, e, hr, ht, _⟩ | ⟨_, _, _, e, _⟩
    · cases e
      obtain ⟨U1, qs1, k1, k2, k3, ⟨_, _, _, e, _⟩ | ⟨_, _, e, k5⟩⟩ := gangs_sim hu hr ht hs'
      · cases e
      cases e
      obtain ⟨⟨w, hs1⟩, hU, hw, hh⟩ := k1.get hT
      cases hw with
      | own hc =>
        cases hh with
        | cons _ _ => exact hp.handlers _ _ _ _ _ _ _ _ _ k2 hU k5
    · cases e
  within mem0 ps i h := by
    rcases gangs_trail hu h with ⟨_, _, U, qs, e, _⟩ | ⟨_, _, _, e, _⟩ <;> cases e

end Verif
