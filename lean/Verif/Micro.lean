import Verif.JitLemmas

/-!
# The microbenchmarks (`/repo/microbenchmarks/shadow_stack.cc`)

The inline assembly of the benchmarks.  The code of the benchmark library around it is arbitrary
code which leaves the thread area and the stack pointer alone.
-/

namespace Verif

/-- `init_shadow_stack`, `/repo/microbenchmarks/shadow_stack.cc:9-14`: `addr` is what `malloc(1024)`
returned; `none` is `abort()`. -/
def microInit (prctlOk : Bool) (addr : W) (s : State) : Option State :=
  if prctlOk then some { s with gs := addr, mem := s.mem.write64 addr (addr + 8) } else none

/-- `BM_ShadowStackPush`, `/repo/microbenchmarks/shadow_stack.cc:20-27`. -/
def microPush : Code :=
  [.push .rax, .push .rcx, .load .rcx .rsp 16, .loadGs .rax 0, .addGs 0 0, .store .rax 0 .rcx,
   .pop .rcx, .pop .rax]

/-- `BM_ShadowStackPushNoCtxSave`, `/repo/microbenchmarks/shadow_stack.cc:65-68`. -/
def microPushBare : Code :=
  [.load .rcx .rsp 16, .loadGs .rax 0, .addGs 0 0, .store .rax 0 .rcx]

/-- `BM_ShadowStackPopNoCtxSave`, `/repo/microbenchmarks/shadow_stack.cc:80-83`. -/
def microPopBare : Code :=
  [.loadGs .rax 0, .load .rcx .rax (-8), .subGs 0 0, .cmpMem .rcx .rsp 16]

/-- `BM_ShadowStackPop`, `/repo/microbenchmarks/shadow_stack.cc:95-102`. -/
def microPop : Code :=
  [.push .rax, .push .rcx, .loadGs .rax 0, .load .rcx .rax (-8), .subGs 0 0, .cmpMem .rcx .rsp 16,
   .pop .rcx, .pop .rax]

/-- `BM_ShadowStackPushConditional`, `/repo/microbenchmarks/shadow_stack.cc:41-53`: `cmp` of `rdi` and `rsp`, `jl` to the end,
and otherwise `int3`, for which there is `none`: the push behind it is not executed. -/
def microCond (s : State) : Option State :=
  if (s.regs .rdi).slt (s.regs .rsp) then some { s with flags := cmpFlags (s.regs .rdi) (s.regs .rsp) } else none

/-- Its loop.  `/repo/microbenchmarks/shadow_stack.cc:40-55`. -/
inductive MicroCondLoop (other : State → State → Prop) : State → State → Prop
  | done {s} : MicroCondLoop other s s
  | step {s s1 s2 s3} : MicroCondLoop other s s1 → microCond s1 = some s2 → other s2 s3 → MicroCondLoop other s s3

/-- The loop of a benchmark: the assembly, then other code.
`/repo/microbenchmarks/shadow_stack.cc:18,40,63,78,93`. -/
inductive MicroLoop (body : Code) (other : State → State → Prop) : State → State → Prop
  | done {s} : MicroLoop body other s s
  | step {s s1 s2 s3} : MicroLoop body other s s1 → Exits body s1 s2 → other s2 s3 →
      MicroLoop body other s s3

end Verif
