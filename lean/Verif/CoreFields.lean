import Verif.CoreLemmas

/-! Field-by-field effect of the small state updates of the engine (generated). -/
set_option linter.unusedSimpArgs false
set_option linter.unusedVariables false

namespace Psygnal

@[simp, grind =] theorem collect_emitter (w : World) (s : SigId) (a : Args) : (w.collect s a).emitter = w.emitter := rfl
@[simp, grind =] theorem collect_hook (w : World) (s : SigId) (a : Args) : (w.collect s a).hook = w.hook := rfl
@[simp, grind =] theorem collect_dead (w : World) (s : SigId) (a : Args) : (w.collect s a).dead = w.dead := rfl
@[simp, grind =] theorem collect_thread (w : World) (s : SigId) (a : Args) : (w.collect s a).thread = w.thread := rfl
@[simp, grind =] theorem collect_tq (w : World) (s : SigId) (a : Args) : (w.collect s a).tq = w.tq := rfl
@[simp, grind =] theorem collect_mem (w : World) (s : SigId) (a : Args) : (w.collect s a).mem = w.mem := rfl
@[simp, grind =] theorem collect_log (w : World) (s : SigId) (a : Args) : (w.collect s a).log = w.log := rfl
@[simp, grind =] theorem collect_nextEm (w : World) (s : SigId) (a : Args) : (w.collect s a).nextEm = w.nextEm := rfl
@[simp, grind =] theorem collect_nextSerial (w : World) (s : SigId) (a : Args) : (w.collect s a).nextSerial = w.nextSerial := rfl
@[simp, grind =] theorem collect_slots (w : World) (s : SigId) (a : Args) (x : SigId) : ((w.collect s a).sig x).slots = (w.sig x).slots := by
  simp only [World.collect, upd_sig, ev_sig, SigState.enter, SigState.leave]; repeat' split
  all_goals rfl
@[simp, grind =] theorem collect_prioInUse (w : World) (s : SigId) (a : Args) (x : SigId) : ((w.collect s a).sig x).prioInUse = (w.sig x).prioInUse := by
  simp only [World.collect, upd_sig, ev_sig, SigState.enter, SigState.leave]; repeat' split
  all_goals rfl
@[simp, grind =] theorem collect_blocked (w : World) (s : SigId) (a : Args) (x : SigId) : ((w.collect s a).sig x).blocked = (w.sig x).blocked := by
  simp only [World.collect, upd_sig, ev_sig, SigState.enter, SigState.leave]; repeat' split
  all_goals rfl
@[simp, grind =] theorem collect_paused (w : World) (s : SigId) (a : Args) (x : SigId) : ((w.collect s a).sig x).paused = (w.sig x).paused := by
  simp only [World.collect, upd_sig, ev_sig, SigState.enter, SigState.leave]; repeat' split
  all_goals rfl
@[simp, grind =] theorem collect_argsQueue (w : World) (s : SigId) (a : Args) (x : SigId) : ((w.collect s a).sig x).argsQueue = if x = s then (w.sig x).argsQueue ++ [a] else (w.sig x).argsQueue := by
  simp only [World.collect, upd_sig, ev_sig, SigState.enter, SigState.leave]; repeat' split
  all_goals simp_all
@[simp, grind =] theorem collect_emitQueue (w : World) (s : SigId) (a : Args) (x : SigId) : ((w.collect s a).sig x).emitQueue = (w.sig x).emitQueue := by
  simp only [World.collect, upd_sig, ev_sig, SigState.enter, SigState.leave]; repeat' split
  all_goals rfl
@[simp, grind =] theorem collect_depth (w : World) (s : SigId) (a : Args) (x : SigId) : ((w.collect s a).sig x).depth = (w.sig x).depth := by
  simp only [World.collect, upd_sig, ev_sig, SigState.enter, SigState.leave]; repeat' split
  all_goals rfl
@[simp, grind =] theorem collect_maxDepth (w : World) (s : SigId) (a : Args) (x : SigId) : ((w.collect s a).sig x).maxDepth = (w.sig x).maxDepth := by
  simp only [World.collect, upd_sig, ev_sig, SigState.enter, SigState.leave]; repeat' split
  all_goals rfl
@[simp, grind =] theorem collect_wasBlocked (w : World) (s : SigId) (a : Args) (x : SigId) : ((w.collect s a).sig x).wasBlocked = (w.sig x).wasBlocked := by
  simp only [World.collect, upd_sig, ev_sig, SigState.enter, SigState.leave]; repeat' split
  all_goals rfl
@[grind =] theorem collect_sig_ne (w : World) (s : SigId) (a : Args) (x : SigId) (h : x ≠ s) : (w.collect s a).sig x = w.sig x := by
  simp [World.collect, upd_sig, h]
@[simp, grind =] theorem enqueue_emitter (w : World) (s : SigId) (a : Args) : (w.enqueue s a).emitter = w.emitter := rfl
@[simp, grind =] theorem enqueue_hook (w : World) (s : SigId) (a : Args) : (w.enqueue s a).hook = w.hook := rfl
@[simp, grind =] theorem enqueue_dead (w : World) (s : SigId) (a : Args) : (w.enqueue s a).dead = w.dead := rfl
@[simp, grind =] theorem enqueue_thread (w : World) (s : SigId) (a : Args) : (w.enqueue s a).thread = w.thread := rfl
@[simp, grind =] theorem enqueue_tq (w : World) (s : SigId) (a : Args) : (w.enqueue s a).tq = w.tq := rfl
@[simp, grind =] theorem enqueue_mem (w : World) (s : SigId) (a : Args) : (w.enqueue s a).mem = w.mem := rfl
@[simp, grind =] theorem enqueue_log (w : World) (s : SigId) (a : Args) : (w.enqueue s a).log = w.log ++ [.req s a] := rfl
@[simp, grind =] theorem enqueue_nextEm (w : World) (s : SigId) (a : Args) : (w.enqueue s a).nextEm = w.nextEm := rfl
@[simp, grind =] theorem enqueue_nextSerial (w : World) (s : SigId) (a : Args) : (w.enqueue s a).nextSerial = w.nextSerial := rfl
@[simp, grind =] theorem enqueue_slots (w : World) (s : SigId) (a : Args) (x : SigId) : ((w.enqueue s a).sig x).slots = (w.sig x).slots := by
  simp only [World.enqueue, upd_sig, ev_sig, SigState.enter, SigState.leave]; repeat' split
  all_goals rfl
@[simp, grind =] theorem enqueue_prioInUse (w : World) (s : SigId) (a : Args) (x : SigId) : ((w.enqueue s a).sig x).prioInUse = (w.sig x).prioInUse := by
  simp only [World.enqueue, upd_sig, ev_sig, SigState.enter, SigState.leave]; repeat' split
  all_goals rfl
@[simp, grind =] theorem enqueue_blocked (w : World) (s : SigId) (a : Args) (x : SigId) : ((w.enqueue s a).sig x).blocked = (w.sig x).blocked := by
  simp only [World.enqueue, upd_sig, ev_sig, SigState.enter, SigState.leave]; repeat' split
  all_goals rfl
@[simp, grind =] theorem enqueue_paused (w : World) (s : SigId) (a : Args) (x : SigId) : ((w.enqueue s a).sig x).paused = (w.sig x).paused := by
  simp only [World.enqueue, upd_sig, ev_sig, SigState.enter, SigState.leave]; repeat' split
  all_goals rfl
@[simp, grind =] theorem enqueue_argsQueue (w : World) (s : SigId) (a : Args) (x : SigId) : ((w.enqueue s a).sig x).argsQueue = (w.sig x).argsQueue := by
  simp only [World.enqueue, upd_sig, ev_sig, SigState.enter, SigState.leave]; repeat' split
  all_goals rfl
@[simp, grind =] theorem enqueue_emitQueue (w : World) (s : SigId) (a : Args) (x : SigId) : ((w.enqueue s a).sig x).emitQueue = if x = s then (w.sig x).emitQueue ++ [a] else (w.sig x).emitQueue := by
  simp only [World.enqueue, upd_sig, ev_sig, SigState.enter, SigState.leave]; repeat' split
  all_goals simp_all
@[simp, grind =] theorem enqueue_depth (w : World) (s : SigId) (a : Args) (x : SigId) : ((w.enqueue s a).sig x).depth = (w.sig x).depth := by
  simp only [World.enqueue, upd_sig, ev_sig, SigState.enter, SigState.leave]; repeat' split
  all_goals rfl
@[simp, grind =] theorem enqueue_maxDepth (w : World) (s : SigId) (a : Args) (x : SigId) : ((w.enqueue s a).sig x).maxDepth = (w.sig x).maxDepth := by
  simp only [World.enqueue, upd_sig, ev_sig, SigState.enter, SigState.leave]; repeat' split
  all_goals rfl
@[simp, grind =] theorem enqueue_wasBlocked (w : World) (s : SigId) (a : Args) (x : SigId) : ((w.enqueue s a).sig x).wasBlocked = (w.sig x).wasBlocked := by
  simp only [World.enqueue, upd_sig, ev_sig, SigState.enter, SigState.leave]; repeat' split
  all_goals rfl
@[grind =] theorem enqueue_sig_ne (w : World) (s : SigId) (a : Args) (x : SigId) (h : x ≠ s) : (w.enqueue s a).sig x = w.sig x := by
  simp [World.enqueue, upd_sig, h]
@[simp, grind =] theorem startLoop_emitter (w : World) (s : SigId) : (w.startLoop s).emitter = some s := rfl
@[simp, grind =] theorem startLoop_hook (w : World) (s : SigId) : (w.startLoop s).hook = w.hook := rfl
@[simp, grind =] theorem startLoop_dead (w : World) (s : SigId) : (w.startLoop s).dead = w.dead := rfl
@[simp, grind =] theorem startLoop_thread (w : World) (s : SigId) : (w.startLoop s).thread = w.thread := rfl
@[simp, grind =] theorem startLoop_tq (w : World) (s : SigId) : (w.startLoop s).tq = w.tq := rfl
@[simp, grind =] theorem startLoop_mem (w : World) (s : SigId) : (w.startLoop s).mem = w.mem := rfl
@[simp, grind =] theorem startLoop_log (w : World) (s : SigId) : (w.startLoop s).log = w.log := rfl
@[simp, grind =] theorem startLoop_nextEm (w : World) (s : SigId) : (w.startLoop s).nextEm = w.nextEm + 1 := rfl
@[simp, grind =] theorem startLoop_nextSerial (w : World) (s : SigId) : (w.startLoop s).nextSerial = w.nextSerial := rfl
@[simp, grind =] theorem startLoop_slots (w : World) (s : SigId) (x : SigId) : ((w.startLoop s).sig x).slots = (w.sig x).slots := by
  simp only [World.startLoop, upd_sig, ev_sig, SigState.enter, SigState.leave]; repeat' split
  all_goals rfl
@[simp, grind =] theorem startLoop_prioInUse (w : World) (s : SigId) (x : SigId) : ((w.startLoop s).sig x).prioInUse = (w.sig x).prioInUse := by
  simp only [World.startLoop, upd_sig, ev_sig, SigState.enter, SigState.leave]; repeat' split
  all_goals rfl
@[simp, grind =] theorem startLoop_blocked (w : World) (s : SigId) (x : SigId) : ((w.startLoop s).sig x).blocked = (w.sig x).blocked := by
  simp only [World.startLoop, upd_sig, ev_sig, SigState.enter, SigState.leave]; repeat' split
  all_goals rfl
@[simp, grind =] theorem startLoop_paused (w : World) (s : SigId) (x : SigId) : ((w.startLoop s).sig x).paused = (w.sig x).paused := by
  simp only [World.startLoop, upd_sig, ev_sig, SigState.enter, SigState.leave]; repeat' split
  all_goals rfl
@[simp, grind =] theorem startLoop_argsQueue (w : World) (s : SigId) (x : SigId) : ((w.startLoop s).sig x).argsQueue = (w.sig x).argsQueue := by
  simp only [World.startLoop, upd_sig, ev_sig, SigState.enter, SigState.leave]; repeat' split
  all_goals rfl
@[simp, grind =] theorem startLoop_emitQueue (w : World) (s : SigId) (x : SigId) : ((w.startLoop s).sig x).emitQueue = (w.sig x).emitQueue := by
  simp only [World.startLoop, upd_sig, ev_sig, SigState.enter, SigState.leave]; repeat' split
  all_goals rfl
@[simp, grind =] theorem startLoop_depth (w : World) (s : SigId) (x : SigId) : ((w.startLoop s).sig x).depth = if x = s then (w.sig x).depth + 1 else (w.sig x).depth := by
  simp only [World.startLoop, upd_sig, ev_sig, SigState.enter, SigState.leave]; repeat' split
  all_goals simp_all
@[simp, grind =] theorem startLoop_maxDepth (w : World) (s : SigId) (x : SigId) : ((w.startLoop s).sig x).maxDepth = if x = s then max (w.sig x).maxDepth ((w.sig x).depth + 1) else (w.sig x).maxDepth := by
  simp only [World.startLoop, upd_sig, ev_sig, SigState.enter, SigState.leave]; repeat' split
  all_goals simp_all
@[simp, grind =] theorem startLoop_wasBlocked (w : World) (s : SigId) (x : SigId) : ((w.startLoop s).sig x).wasBlocked = (w.sig x).wasBlocked := by
  simp only [World.startLoop, upd_sig, ev_sig, SigState.enter, SigState.leave]; repeat' split
  all_goals rfl
@[grind =] theorem startLoop_sig_ne (w : World) (s : SigId) (x : SigId) (h : x ≠ s) : (w.startLoop s).sig x = w.sig x := by
  simp [World.startLoop, upd_sig, h]
@[simp, grind =] theorem endLoop_emitter (w : World) (s : SigId) (p : Option SigId) : (w.endLoop s p).emitter = p := rfl
@[simp, grind =] theorem endLoop_hook (w : World) (s : SigId) (p : Option SigId) : (w.endLoop s p).hook = w.hook := rfl
@[simp, grind =] theorem endLoop_dead (w : World) (s : SigId) (p : Option SigId) : (w.endLoop s p).dead = w.dead := rfl
@[simp, grind =] theorem endLoop_thread (w : World) (s : SigId) (p : Option SigId) : (w.endLoop s p).thread = w.thread := rfl
@[simp, grind =] theorem endLoop_tq (w : World) (s : SigId) (p : Option SigId) : (w.endLoop s p).tq = w.tq := rfl
@[simp, grind =] theorem endLoop_mem (w : World) (s : SigId) (p : Option SigId) : (w.endLoop s p).mem = w.mem := rfl
@[simp, grind =] theorem endLoop_log (w : World) (s : SigId) (p : Option SigId) : (w.endLoop s p).log = w.log := rfl
@[simp, grind =] theorem endLoop_nextEm (w : World) (s : SigId) (p : Option SigId) : (w.endLoop s p).nextEm = w.nextEm := rfl
@[simp, grind =] theorem endLoop_nextSerial (w : World) (s : SigId) (p : Option SigId) : (w.endLoop s p).nextSerial = w.nextSerial := rfl
@[simp, grind =] theorem endLoop_slots (w : World) (s : SigId) (p : Option SigId) (x : SigId) : ((w.endLoop s p).sig x).slots = (w.sig x).slots := by
  simp only [World.endLoop, upd_sig, ev_sig, SigState.enter, SigState.leave]; repeat' split
  all_goals rfl
@[simp, grind =] theorem endLoop_prioInUse (w : World) (s : SigId) (p : Option SigId) (x : SigId) : ((w.endLoop s p).sig x).prioInUse = (w.sig x).prioInUse := by
  simp only [World.endLoop, upd_sig, ev_sig, SigState.enter, SigState.leave]; repeat' split
  all_goals rfl
@[simp, grind =] theorem endLoop_blocked (w : World) (s : SigId) (p : Option SigId) (x : SigId) : ((w.endLoop s p).sig x).blocked = (w.sig x).blocked := by
  simp only [World.endLoop, upd_sig, ev_sig, SigState.enter, SigState.leave]; repeat' split
  all_goals rfl
@[simp, grind =] theorem endLoop_paused (w : World) (s : SigId) (p : Option SigId) (x : SigId) : ((w.endLoop s p).sig x).paused = (w.sig x).paused := by
  simp only [World.endLoop, upd_sig, ev_sig, SigState.enter, SigState.leave]; repeat' split
  all_goals rfl
@[simp, grind =] theorem endLoop_argsQueue (w : World) (s : SigId) (p : Option SigId) (x : SigId) : ((w.endLoop s p).sig x).argsQueue = (w.sig x).argsQueue := by
  simp only [World.endLoop, upd_sig, ev_sig, SigState.enter, SigState.leave]; repeat' split
  all_goals rfl
@[simp, grind =] theorem endLoop_emitQueue (w : World) (s : SigId) (p : Option SigId) (x : SigId) : ((w.endLoop s p).sig x).emitQueue = if x = s then [] else (w.sig x).emitQueue := by
  simp only [World.endLoop, upd_sig, ev_sig, SigState.enter, SigState.leave]; repeat' split
  all_goals simp_all
@[simp, grind =] theorem endLoop_depth (w : World) (s : SigId) (p : Option SigId) (x : SigId) : ((w.endLoop s p).sig x).depth = if x = s then (if (w.sig x).depth - 1 ≤ 0 then 0 else (w.sig x).depth - 1) else (w.sig x).depth := by
  simp only [World.endLoop, upd_sig, ev_sig, SigState.enter, SigState.leave]; repeat' split
  all_goals simp_all
@[simp, grind =] theorem endLoop_maxDepth (w : World) (s : SigId) (p : Option SigId) (x : SigId) : ((w.endLoop s p).sig x).maxDepth = if x = s then (if (w.sig x).depth - 1 ≤ 0 then 0 else (w.sig x).maxDepth) else (w.sig x).maxDepth := by
  simp only [World.endLoop, upd_sig, ev_sig, SigState.enter, SigState.leave]; repeat' split
  all_goals simp_all
@[simp, grind =] theorem endLoop_wasBlocked (w : World) (s : SigId) (p : Option SigId) (x : SigId) : ((w.endLoop s p).sig x).wasBlocked = (w.sig x).wasBlocked := by
  simp only [World.endLoop, upd_sig, ev_sig, SigState.enter, SigState.leave]; repeat' split
  all_goals rfl
@[grind =] theorem endLoop_sig_ne (w : World) (s : SigId) (p : Option SigId) (x : SigId) (h : x ≠ s) : (w.endLoop s p).sig x = w.sig x := by
  simp [World.endLoop, upd_sig, h]
@[simp, grind =] theorem startFast_emitter (w : World) (s : SigId) (a : Args) : (w.startFast s a).emitter = w.emitter := rfl
@[simp, grind =] theorem startFast_hook (w : World) (s : SigId) (a : Args) : (w.startFast s a).hook = w.hook := rfl
@[simp, grind =] theorem startFast_dead (w : World) (s : SigId) (a : Args) : (w.startFast s a).dead = w.dead := rfl
@[simp, grind =] theorem startFast_thread (w : World) (s : SigId) (a : Args) : (w.startFast s a).thread = w.thread := rfl
@[simp, grind =] theorem startFast_tq (w : World) (s : SigId) (a : Args) : (w.startFast s a).tq = w.tq := rfl
@[simp, grind =] theorem startFast_mem (w : World) (s : SigId) (a : Args) : (w.startFast s a).mem = w.mem := rfl
@[simp, grind =] theorem startFast_log (w : World) (s : SigId) (a : Args) : (w.startFast s a).log = w.log ++ [.fast s a w.nextEm] := rfl
@[simp, grind =] theorem startFast_nextEm (w : World) (s : SigId) (a : Args) : (w.startFast s a).nextEm = w.nextEm + 1 := rfl
@[simp, grind =] theorem startFast_nextSerial (w : World) (s : SigId) (a : Args) : (w.startFast s a).nextSerial = w.nextSerial := rfl
@[simp, grind =] theorem startFast_slots (w : World) (s : SigId) (a : Args) (x : SigId) : ((w.startFast s a).sig x).slots = (w.sig x).slots := by
  simp only [World.startFast, upd_sig, ev_sig, SigState.enter, SigState.leave]; repeat' split
  all_goals rfl
@[simp, grind =] theorem startFast_prioInUse (w : World) (s : SigId) (a : Args) (x : SigId) : ((w.startFast s a).sig x).prioInUse = (w.sig x).prioInUse := by
  simp only [World.startFast, upd_sig, ev_sig, SigState.enter, SigState.leave]; repeat' split
  all_goals rfl
@[simp, grind =] theorem startFast_blocked (w : World) (s : SigId) (a : Args) (x : SigId) : ((w.startFast s a).sig x).blocked = (w.sig x).blocked := by
  simp only [World.startFast, upd_sig, ev_sig, SigState.enter, SigState.leave]; repeat' split
  all_goals rfl
@[simp, grind =] theorem startFast_paused (w : World) (s : SigId) (a : Args) (x : SigId) : ((w.startFast s a).sig x).paused = (w.sig x).paused := by
  simp only [World.startFast, upd_sig, ev_sig, SigState.enter, SigState.leave]; repeat' split
  all_goals rfl
@[simp, grind =] theorem startFast_argsQueue (w : World) (s : SigId) (a : Args) (x : SigId) : ((w.startFast s a).sig x).argsQueue = (w.sig x).argsQueue := by
  simp only [World.startFast, upd_sig, ev_sig, SigState.enter, SigState.leave]; repeat' split
  all_goals rfl
@[simp, grind =] theorem startFast_emitQueue (w : World) (s : SigId) (a : Args) (x : SigId) : ((w.startFast s a).sig x).emitQueue = (w.sig x).emitQueue := by
  simp only [World.startFast, upd_sig, ev_sig, SigState.enter, SigState.leave]; repeat' split
  all_goals rfl
@[simp, grind =] theorem startFast_depth (w : World) (s : SigId) (a : Args) (x : SigId) : ((w.startFast s a).sig x).depth = if x = s then (w.sig x).depth + 1 else (w.sig x).depth := by
  simp only [World.startFast, upd_sig, ev_sig, SigState.enter, SigState.leave]; repeat' split
  all_goals simp_all
@[simp, grind =] theorem startFast_maxDepth (w : World) (s : SigId) (a : Args) (x : SigId) : ((w.startFast s a).sig x).maxDepth = (w.sig x).maxDepth := by
  simp only [World.startFast, upd_sig, ev_sig, SigState.enter, SigState.leave]; repeat' split
  all_goals rfl
@[simp, grind =] theorem startFast_wasBlocked (w : World) (s : SigId) (a : Args) (x : SigId) : ((w.startFast s a).sig x).wasBlocked = (w.sig x).wasBlocked := by
  simp only [World.startFast, upd_sig, ev_sig, SigState.enter, SigState.leave]; repeat' split
  all_goals rfl
@[grind =] theorem startFast_sig_ne (w : World) (s : SigId) (a : Args) (x : SigId) (h : x ≠ s) : (w.startFast s a).sig x = w.sig x := by
  simp [World.startFast, upd_sig, h]
@[simp, grind =] theorem endFast_emitter (w : World) (s : SigId) : (w.endFast s).emitter = w.emitter := rfl
@[simp, grind =] theorem endFast_hook (w : World) (s : SigId) : (w.endFast s).hook = w.hook := rfl
@[simp, grind =] theorem endFast_dead (w : World) (s : SigId) : (w.endFast s).dead = w.dead := rfl
@[simp, grind =] theorem endFast_thread (w : World) (s : SigId) : (w.endFast s).thread = w.thread := rfl
@[simp, grind =] theorem endFast_tq (w : World) (s : SigId) : (w.endFast s).tq = w.tq := rfl
@[simp, grind =] theorem endFast_mem (w : World) (s : SigId) : (w.endFast s).mem = w.mem := rfl
@[simp, grind =] theorem endFast_log (w : World) (s : SigId) : (w.endFast s).log = w.log := rfl
@[simp, grind =] theorem endFast_nextEm (w : World) (s : SigId) : (w.endFast s).nextEm = w.nextEm := rfl
@[simp, grind =] theorem endFast_nextSerial (w : World) (s : SigId) : (w.endFast s).nextSerial = w.nextSerial := rfl
@[simp, grind =] theorem endFast_slots (w : World) (s : SigId) (x : SigId) : ((w.endFast s).sig x).slots = (w.sig x).slots := by
  simp only [World.endFast, upd_sig, ev_sig, SigState.enter, SigState.leave]; repeat' split
  all_goals rfl
@[simp, grind =] theorem endFast_prioInUse (w : World) (s : SigId) (x : SigId) : ((w.endFast s).sig x).prioInUse = (w.sig x).prioInUse := by
  simp only [World.endFast, upd_sig, ev_sig, SigState.enter, SigState.leave]; repeat' split
  all_goals rfl
@[simp, grind =] theorem endFast_blocked (w : World) (s : SigId) (x : SigId) : ((w.endFast s).sig x).blocked = (w.sig x).blocked := by
  simp only [World.endFast, upd_sig, ev_sig, SigState.enter, SigState.leave]; repeat' split
  all_goals rfl
@[simp, grind =] theorem endFast_paused (w : World) (s : SigId) (x : SigId) : ((w.endFast s).sig x).paused = (w.sig x).paused := by
  simp only [World.endFast, upd_sig, ev_sig, SigState.enter, SigState.leave]; repeat' split
  all_goals rfl
@[simp, grind =] theorem endFast_argsQueue (w : World) (s : SigId) (x : SigId) : ((w.endFast s).sig x).argsQueue = (w.sig x).argsQueue := by
  simp only [World.endFast, upd_sig, ev_sig, SigState.enter, SigState.leave]; repeat' split
  all_goals rfl
@[simp, grind =] theorem endFast_emitQueue (w : World) (s : SigId) (x : SigId) : ((w.endFast s).sig x).emitQueue = (w.sig x).emitQueue := by
  simp only [World.endFast, upd_sig, ev_sig, SigState.enter, SigState.leave]; repeat' split
  all_goals rfl
@[simp, grind =] theorem endFast_depth (w : World) (s : SigId) (x : SigId) : ((w.endFast s).sig x).depth = if x = s then (if (w.sig x).depth > 0 then (w.sig x).depth - 1 else (w.sig x).depth) else (w.sig x).depth := by
  simp only [World.endFast, upd_sig, ev_sig, SigState.enter, SigState.leave]; repeat' split
  all_goals simp_all
@[simp, grind =] theorem endFast_maxDepth (w : World) (s : SigId) (x : SigId) : ((w.endFast s).sig x).maxDepth = (w.sig x).maxDepth := by
  simp only [World.endFast, upd_sig, ev_sig, SigState.enter, SigState.leave]; repeat' split
  all_goals rfl
@[simp, grind =] theorem endFast_wasBlocked (w : World) (s : SigId) (x : SigId) : ((w.endFast s).sig x).wasBlocked = (w.sig x).wasBlocked := by
  simp only [World.endFast, upd_sig, ev_sig, SigState.enter, SigState.leave]; repeat' split
  all_goals rfl
@[grind =] theorem endFast_sig_ne (w : World) (s : SigId) (x : SigId) (h : x ≠ s) : (w.endFast s).sig x = w.sig x := by
  simp [World.endFast, upd_sig, h]
@[simp, grind =] theorem popQueue_emitter (w : World) (s : SigId) : (w.popQueue s).emitter = w.emitter := rfl
@[simp, grind =] theorem popQueue_hook (w : World) (s : SigId) : (w.popQueue s).hook = w.hook := rfl
@[simp, grind =] theorem popQueue_dead (w : World) (s : SigId) : (w.popQueue s).dead = w.dead := rfl
@[simp, grind =] theorem popQueue_thread (w : World) (s : SigId) : (w.popQueue s).thread = w.thread := rfl
@[simp, grind =] theorem popQueue_tq (w : World) (s : SigId) : (w.popQueue s).tq = w.tq := rfl
@[simp, grind =] theorem popQueue_mem (w : World) (s : SigId) : (w.popQueue s).mem = w.mem := rfl
@[simp, grind =] theorem popQueue_log (w : World) (s : SigId) : (w.popQueue s).log = w.log := rfl
@[simp, grind =] theorem popQueue_nextEm (w : World) (s : SigId) : (w.popQueue s).nextEm = w.nextEm := rfl
@[simp, grind =] theorem popQueue_nextSerial (w : World) (s : SigId) : (w.popQueue s).nextSerial = w.nextSerial := rfl
@[simp, grind =] theorem popQueue_slots (w : World) (s : SigId) (x : SigId) : ((w.popQueue s).sig x).slots = (w.sig x).slots := by
  simp only [World.popQueue, upd_sig, ev_sig, SigState.enter, SigState.leave]; repeat' split
  all_goals rfl
@[simp, grind =] theorem popQueue_prioInUse (w : World) (s : SigId) (x : SigId) : ((w.popQueue s).sig x).prioInUse = (w.sig x).prioInUse := by
  simp only [World.popQueue, upd_sig, ev_sig, SigState.enter, SigState.leave]; repeat' split
  all_goals rfl
@[simp, grind =] theorem popQueue_blocked (w : World) (s : SigId) (x : SigId) : ((w.popQueue s).sig x).blocked = (w.sig x).blocked := by
  simp only [World.popQueue, upd_sig, ev_sig, SigState.enter, SigState.leave]; repeat' split
  all_goals rfl
@[simp, grind =] theorem popQueue_paused (w : World) (s : SigId) (x : SigId) : ((w.popQueue s).sig x).paused = (w.sig x).paused := by
  simp only [World.popQueue, upd_sig, ev_sig, SigState.enter, SigState.leave]; repeat' split
  all_goals rfl
@[simp, grind =] theorem popQueue_argsQueue (w : World) (s : SigId) (x : SigId) : ((w.popQueue s).sig x).argsQueue = (w.sig x).argsQueue := by
  simp only [World.popQueue, upd_sig, ev_sig, SigState.enter, SigState.leave]; repeat' split
  all_goals rfl
@[simp, grind =] theorem popQueue_emitQueue (w : World) (s : SigId) (x : SigId) : ((w.popQueue s).sig x).emitQueue = if x = s then (w.sig x).emitQueue.tail else (w.sig x).emitQueue := by
  simp only [World.popQueue, upd_sig, ev_sig, SigState.enter, SigState.leave]; repeat' split
  all_goals simp_all
@[simp, grind =] theorem popQueue_depth (w : World) (s : SigId) (x : SigId) : ((w.popQueue s).sig x).depth = (w.sig x).depth := by
  simp only [World.popQueue, upd_sig, ev_sig, SigState.enter, SigState.leave]; repeat' split
  all_goals rfl
@[simp, grind =] theorem popQueue_maxDepth (w : World) (s : SigId) (x : SigId) : ((w.popQueue s).sig x).maxDepth = (w.sig x).maxDepth := by
  simp only [World.popQueue, upd_sig, ev_sig, SigState.enter, SigState.leave]; repeat' split
  all_goals rfl
@[simp, grind =] theorem popQueue_wasBlocked (w : World) (s : SigId) (x : SigId) : ((w.popQueue s).sig x).wasBlocked = (w.sig x).wasBlocked := by
  simp only [World.popQueue, upd_sig, ev_sig, SigState.enter, SigState.leave]; repeat' split
  all_goals rfl
@[grind =] theorem popQueue_sig_ne (w : World) (s : SigId) (x : SigId) (h : x ≠ s) : (w.popQueue s).sig x = w.sig x := by
  simp [World.popQueue, upd_sig, h]
@[simp, grind =] theorem unpause_emitter (w : World) (s : SigId) : (w.unpause s).emitter = w.emitter := rfl
@[simp, grind =] theorem unpause_hook (w : World) (s : SigId) : (w.unpause s).hook = w.hook := rfl
@[simp, grind =] theorem unpause_dead (w : World) (s : SigId) : (w.unpause s).dead = w.dead := rfl
@[simp, grind =] theorem unpause_thread (w : World) (s : SigId) : (w.unpause s).thread = w.thread := rfl
@[simp, grind =] theorem unpause_tq (w : World) (s : SigId) : (w.unpause s).tq = w.tq := rfl
@[simp, grind =] theorem unpause_mem (w : World) (s : SigId) : (w.unpause s).mem = w.mem := rfl
@[simp, grind =] theorem unpause_log (w : World) (s : SigId) : (w.unpause s).log = w.log := rfl
@[simp, grind =] theorem unpause_nextEm (w : World) (s : SigId) : (w.unpause s).nextEm = w.nextEm := rfl
@[simp, grind =] theorem unpause_nextSerial (w : World) (s : SigId) : (w.unpause s).nextSerial = w.nextSerial := rfl
@[simp, grind =] theorem unpause_slots (w : World) (s : SigId) (x : SigId) : ((w.unpause s).sig x).slots = (w.sig x).slots := by
  simp only [World.unpause, upd_sig, ev_sig, SigState.enter, SigState.leave]; repeat' split
  all_goals rfl
@[simp, grind =] theorem unpause_prioInUse (w : World) (s : SigId) (x : SigId) : ((w.unpause s).sig x).prioInUse = (w.sig x).prioInUse := by
  simp only [World.unpause, upd_sig, ev_sig, SigState.enter, SigState.leave]; repeat' split
  all_goals rfl
@[simp, grind =] theorem unpause_blocked (w : World) (s : SigId) (x : SigId) : ((w.unpause s).sig x).blocked = (w.sig x).blocked := by
  simp only [World.unpause, upd_sig, ev_sig, SigState.enter, SigState.leave]; repeat' split
  all_goals rfl
@[simp, grind =] theorem unpause_paused (w : World) (s : SigId) (x : SigId) : ((w.unpause s).sig x).paused = if x = s then false else (w.sig x).paused := by
  simp only [World.unpause, upd_sig, ev_sig, SigState.enter, SigState.leave]; repeat' split
  all_goals simp_all
@[simp, grind =] theorem unpause_argsQueue (w : World) (s : SigId) (x : SigId) : ((w.unpause s).sig x).argsQueue = (w.sig x).argsQueue := by
  simp only [World.unpause, upd_sig, ev_sig, SigState.enter, SigState.leave]; repeat' split
  all_goals rfl
@[simp, grind =] theorem unpause_emitQueue (w : World) (s : SigId) (x : SigId) : ((w.unpause s).sig x).emitQueue = (w.sig x).emitQueue := by
  simp only [World.unpause, upd_sig, ev_sig, SigState.enter, SigState.leave]; repeat' split
  all_goals rfl
@[simp, grind =] theorem unpause_depth (w : World) (s : SigId) (x : SigId) : ((w.unpause s).sig x).depth = (w.sig x).depth := by
  simp only [World.unpause, upd_sig, ev_sig, SigState.enter, SigState.leave]; repeat' split
  all_goals rfl
@[simp, grind =] theorem unpause_maxDepth (w : World) (s : SigId) (x : SigId) : ((w.unpause s).sig x).maxDepth = (w.sig x).maxDepth := by
  simp only [World.unpause, upd_sig, ev_sig, SigState.enter, SigState.leave]; repeat' split
  all_goals rfl
@[simp, grind =] theorem unpause_wasBlocked (w : World) (s : SigId) (x : SigId) : ((w.unpause s).sig x).wasBlocked = (w.sig x).wasBlocked := by
  simp only [World.unpause, upd_sig, ev_sig, SigState.enter, SigState.leave]; repeat' split
  all_goals rfl
@[grind =] theorem unpause_sig_ne (w : World) (s : SigId) (x : SigId) (h : x ≠ s) : (w.unpause s).sig x = w.sig x := by
  simp [World.unpause, upd_sig, h]
@[simp, grind =] theorem pause_emitter (w : World) (s : SigId) : (w.pause s).emitter = w.emitter := rfl
@[simp, grind =] theorem pause_hook (w : World) (s : SigId) : (w.pause s).hook = w.hook := rfl
@[simp, grind =] theorem pause_dead (w : World) (s : SigId) : (w.pause s).dead = w.dead := rfl
@[simp, grind =] theorem pause_thread (w : World) (s : SigId) : (w.pause s).thread = w.thread := rfl
@[simp, grind =] theorem pause_tq (w : World) (s : SigId) : (w.pause s).tq = w.tq := rfl
@[simp, grind =] theorem pause_mem (w : World) (s : SigId) : (w.pause s).mem = w.mem := rfl
@[simp, grind =] theorem pause_log (w : World) (s : SigId) : (w.pause s).log = w.log := rfl
@[simp, grind =] theorem pause_nextEm (w : World) (s : SigId) : (w.pause s).nextEm = w.nextEm := rfl
@[simp, grind =] theorem pause_nextSerial (w : World) (s : SigId) : (w.pause s).nextSerial = w.nextSerial := rfl
@[simp, grind =] theorem pause_slots (w : World) (s : SigId) (x : SigId) : ((w.pause s).sig x).slots = (w.sig x).slots := by
  simp only [World.pause, upd_sig, ev_sig, SigState.enter, SigState.leave]; repeat' split
  all_goals rfl
@[simp, grind =] theorem pause_prioInUse (w : World) (s : SigId) (x : SigId) : ((w.pause s).sig x).prioInUse = (w.sig x).prioInUse := by
  simp only [World.pause, upd_sig, ev_sig, SigState.enter, SigState.leave]; repeat' split
  all_goals rfl
@[simp, grind =] theorem pause_blocked (w : World) (s : SigId) (x : SigId) : ((w.pause s).sig x).blocked = (w.sig x).blocked := by
  simp only [World.pause, upd_sig, ev_sig, SigState.enter, SigState.leave]; repeat' split
  all_goals rfl
@[simp, grind =] theorem pause_paused (w : World) (s : SigId) (x : SigId) : ((w.pause s).sig x).paused = if x = s then true else (w.sig x).paused := by
  simp only [World.pause, upd_sig, ev_sig, SigState.enter, SigState.leave]; repeat' split
  all_goals simp_all
@[simp, grind =] theorem pause_argsQueue (w : World) (s : SigId) (x : SigId) : ((w.pause s).sig x).argsQueue = (w.sig x).argsQueue := by
  simp only [World.pause, upd_sig, ev_sig, SigState.enter, SigState.leave]; repeat' split
  all_goals rfl
@[simp, grind =] theorem pause_emitQueue (w : World) (s : SigId) (x : SigId) : ((w.pause s).sig x).emitQueue = (w.sig x).emitQueue := by
  simp only [World.pause, upd_sig, ev_sig, SigState.enter, SigState.leave]; repeat' split
  all_goals rfl
@[simp, grind =] theorem pause_depth (w : World) (s : SigId) (x : SigId) : ((w.pause s).sig x).depth = (w.sig x).depth := by
  simp only [World.pause, upd_sig, ev_sig, SigState.enter, SigState.leave]; repeat' split
  all_goals rfl
@[simp, grind =] theorem pause_maxDepth (w : World) (s : SigId) (x : SigId) : ((w.pause s).sig x).maxDepth = (w.sig x).maxDepth := by
  simp only [World.pause, upd_sig, ev_sig, SigState.enter, SigState.leave]; repeat' split
  all_goals rfl
@[simp, grind =] theorem pause_wasBlocked (w : World) (s : SigId) (x : SigId) : ((w.pause s).sig x).wasBlocked = (w.sig x).wasBlocked := by
  simp only [World.pause, upd_sig, ev_sig, SigState.enter, SigState.leave]; repeat' split
  all_goals rfl
@[grind =] theorem pause_sig_ne (w : World) (s : SigId) (x : SigId) (h : x ≠ s) : (w.pause s).sig x = w.sig x := by
  simp [World.pause, upd_sig, h]
@[simp, grind =] theorem clearArgs_emitter (w : World) (s : SigId) : (w.clearArgs s).emitter = w.emitter := rfl
@[simp, grind =] theorem clearArgs_hook (w : World) (s : SigId) : (w.clearArgs s).hook = w.hook := rfl
@[simp, grind =] theorem clearArgs_dead (w : World) (s : SigId) : (w.clearArgs s).dead = w.dead := rfl
@[simp, grind =] theorem clearArgs_thread (w : World) (s : SigId) : (w.clearArgs s).thread = w.thread := rfl
@[simp, grind =] theorem clearArgs_tq (w : World) (s : SigId) : (w.clearArgs s).tq = w.tq := rfl
@[simp, grind =] theorem clearArgs_mem (w : World) (s : SigId) : (w.clearArgs s).mem = w.mem := rfl
@[simp, grind =] theorem clearArgs_log (w : World) (s : SigId) : (w.clearArgs s).log = w.log := rfl
@[simp, grind =] theorem clearArgs_nextEm (w : World) (s : SigId) : (w.clearArgs s).nextEm = w.nextEm := rfl
@[simp, grind =] theorem clearArgs_nextSerial (w : World) (s : SigId) : (w.clearArgs s).nextSerial = w.nextSerial := rfl
@[simp, grind =] theorem clearArgs_slots (w : World) (s : SigId) (x : SigId) : ((w.clearArgs s).sig x).slots = (w.sig x).slots := by
  simp only [World.clearArgs, upd_sig, ev_sig, SigState.enter, SigState.leave]; repeat' split
  all_goals rfl
@[simp, grind =] theorem clearArgs_prioInUse (w : World) (s : SigId) (x : SigId) : ((w.clearArgs s).sig x).prioInUse = (w.sig x).prioInUse := by
  simp only [World.clearArgs, upd_sig, ev_sig, SigState.enter, SigState.leave]; repeat' split
  all_goals rfl
@[simp, grind =] theorem clearArgs_blocked (w : World) (s : SigId) (x : SigId) : ((w.clearArgs s).sig x).blocked = (w.sig x).blocked := by
  simp only [World.clearArgs, upd_sig, ev_sig, SigState.enter, SigState.leave]; repeat' split
  all_goals rfl
@[simp, grind =] theorem clearArgs_paused (w : World) (s : SigId) (x : SigId) : ((w.clearArgs s).sig x).paused = (w.sig x).paused := by
  simp only [World.clearArgs, upd_sig, ev_sig, SigState.enter, SigState.leave]; repeat' split
  all_goals rfl
@[simp, grind =] theorem clearArgs_argsQueue (w : World) (s : SigId) (x : SigId) : ((w.clearArgs s).sig x).argsQueue = if x = s then [] else (w.sig x).argsQueue := by
  simp only [World.clearArgs, upd_sig, ev_sig, SigState.enter, SigState.leave]; repeat' split
  all_goals simp_all
@[simp, grind =] theorem clearArgs_emitQueue (w : World) (s : SigId) (x : SigId) : ((w.clearArgs s).sig x).emitQueue = (w.sig x).emitQueue := by
  simp only [World.clearArgs, upd_sig, ev_sig, SigState.enter, SigState.leave]; repeat' split
  all_goals rfl
@[simp, grind =] theorem clearArgs_depth (w : World) (s : SigId) (x : SigId) : ((w.clearArgs s).sig x).depth = (w.sig x).depth := by
  simp only [World.clearArgs, upd_sig, ev_sig, SigState.enter, SigState.leave]; repeat' split
  all_goals rfl
@[simp, grind =] theorem clearArgs_maxDepth (w : World) (s : SigId) (x : SigId) : ((w.clearArgs s).sig x).maxDepth = (w.sig x).maxDepth := by
  simp only [World.clearArgs, upd_sig, ev_sig, SigState.enter, SigState.leave]; repeat' split
  all_goals rfl
@[simp, grind =] theorem clearArgs_wasBlocked (w : World) (s : SigId) (x : SigId) : ((w.clearArgs s).sig x).wasBlocked = (w.sig x).wasBlocked := by
  simp only [World.clearArgs, upd_sig, ev_sig, SigState.enter, SigState.leave]; repeat' split
  all_goals rfl
@[grind =] theorem clearArgs_sig_ne (w : World) (s : SigId) (x : SigId) (h : x ≠ s) : (w.clearArgs s).sig x = w.sig x := by
  simp [World.clearArgs, upd_sig, h]
@[simp, grind =] theorem putQueue_emitter (w : World) (t : ThreadId) (y : Slot) (a : Args) (em : Option Nat) : (w.putQueue t y a em).emitter = w.emitter := rfl
@[simp, grind =] theorem putQueue_hook (w : World) (t : ThreadId) (y : Slot) (a : Args) (em : Option Nat) : (w.putQueue t y a em).hook = w.hook := rfl
@[simp, grind =] theorem putQueue_dead (w : World) (t : ThreadId) (y : Slot) (a : Args) (em : Option Nat) : (w.putQueue t y a em).dead = w.dead := rfl
@[simp, grind =] theorem putQueue_thread (w : World) (t : ThreadId) (y : Slot) (a : Args) (em : Option Nat) : (w.putQueue t y a em).thread = w.thread := rfl
@[simp, grind =] theorem putQueue_tq (w : World) (t : ThreadId) (y : Slot) (a : Args) (em : Option Nat) : (w.putQueue t y a em).tq = fun t' => if t' = t then w.tq t ++ [(y, a)] else w.tq t' := rfl
@[simp, grind =] theorem putQueue_mem (w : World) (t : ThreadId) (y : Slot) (a : Args) (em : Option Nat) : (w.putQueue t y a em).mem = w.mem := rfl
@[simp, grind =] theorem putQueue_log (w : World) (t : ThreadId) (y : Slot) (a : Args) (em : Option Nat) : (w.putQueue t y a em).log = w.log ++ [.put t y.base a em] := rfl
@[simp, grind =] theorem putQueue_nextEm (w : World) (t : ThreadId) (y : Slot) (a : Args) (em : Option Nat) : (w.putQueue t y a em).nextEm = w.nextEm := rfl
@[simp, grind =] theorem putQueue_nextSerial (w : World) (t : ThreadId) (y : Slot) (a : Args) (em : Option Nat) : (w.putQueue t y a em).nextSerial = w.nextSerial := rfl
@[simp] theorem putQueue_sig (w : World) (t : ThreadId) (y : Slot) (a : Args) (em : Option Nat) : (w.putQueue t y a em).sig = w.sig := rfl
@[grind =] theorem putQueue_sig_app (w : World) (t : ThreadId) (y : Slot) (a : Args) (em : Option Nat) (x : SigId) : (w.putQueue t y a em).sig x = w.sig x := rfl
@[grind =] theorem putQueue_slots (w : World) (t : ThreadId) (y : Slot) (a : Args) (em : Option Nat) (x : SigId) : ((w.putQueue t y a em).sig x).slots = (w.sig x).slots := rfl
@[grind =] theorem putQueue_prioInUse (w : World) (t : ThreadId) (y : Slot) (a : Args) (em : Option Nat) (x : SigId) : ((w.putQueue t y a em).sig x).prioInUse = (w.sig x).prioInUse := rfl
@[grind =] theorem putQueue_blocked (w : World) (t : ThreadId) (y : Slot) (a : Args) (em : Option Nat) (x : SigId) : ((w.putQueue t y a em).sig x).blocked = (w.sig x).blocked := rfl
@[grind =] theorem putQueue_paused (w : World) (t : ThreadId) (y : Slot) (a : Args) (em : Option Nat) (x : SigId) : ((w.putQueue t y a em).sig x).paused = (w.sig x).paused := rfl
@[grind =] theorem putQueue_argsQueue (w : World) (t : ThreadId) (y : Slot) (a : Args) (em : Option Nat) (x : SigId) : ((w.putQueue t y a em).sig x).argsQueue = (w.sig x).argsQueue := rfl
@[grind =] theorem putQueue_emitQueue (w : World) (t : ThreadId) (y : Slot) (a : Args) (em : Option Nat) (x : SigId) : ((w.putQueue t y a em).sig x).emitQueue = (w.sig x).emitQueue := rfl
@[grind =] theorem putQueue_depth (w : World) (t : ThreadId) (y : Slot) (a : Args) (em : Option Nat) (x : SigId) : ((w.putQueue t y a em).sig x).depth = (w.sig x).depth := rfl
@[grind =] theorem putQueue_maxDepth (w : World) (t : ThreadId) (y : Slot) (a : Args) (em : Option Nat) (x : SigId) : ((w.putQueue t y a em).sig x).maxDepth = (w.sig x).maxDepth := rfl
@[grind =] theorem putQueue_wasBlocked (w : World) (t : ThreadId) (y : Slot) (a : Args) (em : Option Nat) (x : SigId) : ((w.putQueue t y a em).sig x).wasBlocked = (w.sig x).wasBlocked := rfl
@[simp, grind =] theorem getQueue_emitter (w : World) (t : ThreadId) (y : Slot) (a : Args) : (w.getQueue t y a).emitter = w.emitter := rfl
@[simp, grind =] theorem getQueue_hook (w : World) (t : ThreadId) (y : Slot) (a : Args) : (w.getQueue t y a).hook = w.hook := rfl
@[simp, grind =] theorem getQueue_dead (w : World) (t : ThreadId) (y : Slot) (a : Args) : (w.getQueue t y a).dead = w.dead := rfl
@[simp, grind =] theorem getQueue_thread (w : World) (t : ThreadId) (y : Slot) (a : Args) : (w.getQueue t y a).thread = w.thread := rfl
@[simp, grind =] theorem getQueue_tq (w : World) (t : ThreadId) (y : Slot) (a : Args) : (w.getQueue t y a).tq = fun t' => if t' = t then (w.tq t).tail else w.tq t' := rfl
@[simp, grind =] theorem getQueue_mem (w : World) (t : ThreadId) (y : Slot) (a : Args) : (w.getQueue t y a).mem = w.mem := rfl
@[simp, grind =] theorem getQueue_log (w : World) (t : ThreadId) (y : Slot) (a : Args) : (w.getQueue t y a).log = w.log ++ [.get t y.base a] := rfl
@[simp, grind =] theorem getQueue_nextEm (w : World) (t : ThreadId) (y : Slot) (a : Args) : (w.getQueue t y a).nextEm = w.nextEm := rfl
@[simp, grind =] theorem getQueue_nextSerial (w : World) (t : ThreadId) (y : Slot) (a : Args) : (w.getQueue t y a).nextSerial = w.nextSerial := rfl
@[simp] theorem getQueue_sig (w : World) (t : ThreadId) (y : Slot) (a : Args) : (w.getQueue t y a).sig = w.sig := rfl
@[grind =] theorem getQueue_sig_app (w : World) (t : ThreadId) (y : Slot) (a : Args) (x : SigId) : (w.getQueue t y a).sig x = w.sig x := rfl
@[grind =] theorem getQueue_slots (w : World) (t : ThreadId) (y : Slot) (a : Args) (x : SigId) : ((w.getQueue t y a).sig x).slots = (w.sig x).slots := rfl
@[grind =] theorem getQueue_prioInUse (w : World) (t : ThreadId) (y : Slot) (a : Args) (x : SigId) : ((w.getQueue t y a).sig x).prioInUse = (w.sig x).prioInUse := rfl
@[grind =] theorem getQueue_blocked (w : World) (t : ThreadId) (y : Slot) (a : Args) (x : SigId) : ((w.getQueue t y a).sig x).blocked = (w.sig x).blocked := rfl
@[grind =] theorem getQueue_paused (w : World) (t : ThreadId) (y : Slot) (a : Args) (x : SigId) : ((w.getQueue t y a).sig x).paused = (w.sig x).paused := rfl
@[grind =] theorem getQueue_argsQueue (w : World) (t : ThreadId) (y : Slot) (a : Args) (x : SigId) : ((w.getQueue t y a).sig x).argsQueue = (w.sig x).argsQueue := rfl
@[grind =] theorem getQueue_emitQueue (w : World) (t : ThreadId) (y : Slot) (a : Args) (x : SigId) : ((w.getQueue t y a).sig x).emitQueue = (w.sig x).emitQueue := rfl
@[grind =] theorem getQueue_depth (w : World) (t : ThreadId) (y : Slot) (a : Args) (x : SigId) : ((w.getQueue t y a).sig x).depth = (w.sig x).depth := rfl
@[grind =] theorem getQueue_maxDepth (w : World) (t : ThreadId) (y : Slot) (a : Args) (x : SigId) : ((w.getQueue t y a).sig x).maxDepth = (w.sig x).maxDepth := rfl
@[grind =] theorem getQueue_wasBlocked (w : World) (t : ThreadId) (y : Slot) (a : Args) (x : SigId) : ((w.getQueue t y a).sig x).wasBlocked = (w.sig x).wasBlocked := rfl
@[simp, grind =] theorem setMem_emitter (w : World) (m : Mem) : (w.setMem m).emitter = w.emitter := rfl
@[simp, grind =] theorem setMem_hook (w : World) (m : Mem) : (w.setMem m).hook = w.hook := rfl
@[simp, grind =] theorem setMem_dead (w : World) (m : Mem) : (w.setMem m).dead = w.dead := rfl
@[simp, grind =] theorem setMem_thread (w : World) (m : Mem) : (w.setMem m).thread = w.thread := rfl
@[simp, grind =] theorem setMem_tq (w : World) (m : Mem) : (w.setMem m).tq = w.tq := rfl
@[simp, grind =] theorem setMem_mem (w : World) (m : Mem) : (w.setMem m).mem = m := rfl
@[simp, grind =] theorem setMem_log (w : World) (m : Mem) : (w.setMem m).log = w.log := rfl
@[simp, grind =] theorem setMem_nextEm (w : World) (m : Mem) : (w.setMem m).nextEm = w.nextEm := rfl
@[simp, grind =] theorem setMem_nextSerial (w : World) (m : Mem) : (w.setMem m).nextSerial = w.nextSerial := rfl
@[simp] theorem setMem_sig (w : World) (m : Mem) : (w.setMem m).sig = w.sig := rfl
@[grind =] theorem setMem_sig_app (w : World) (m : Mem) (x : SigId) : (w.setMem m).sig x = w.sig x := rfl
@[grind =] theorem setMem_slots (w : World) (m : Mem) (x : SigId) : ((w.setMem m).sig x).slots = (w.sig x).slots := rfl
@[grind =] theorem setMem_prioInUse (w : World) (m : Mem) (x : SigId) : ((w.setMem m).sig x).prioInUse = (w.sig x).prioInUse := rfl
@[grind =] theorem setMem_blocked (w : World) (m : Mem) (x : SigId) : ((w.setMem m).sig x).blocked = (w.sig x).blocked := rfl
@[grind =] theorem setMem_paused (w : World) (m : Mem) (x : SigId) : ((w.setMem m).sig x).paused = (w.sig x).paused := rfl
@[grind =] theorem setMem_argsQueue (w : World) (m : Mem) (x : SigId) : ((w.setMem m).sig x).argsQueue = (w.sig x).argsQueue := rfl
@[grind =] theorem setMem_emitQueue (w : World) (m : Mem) (x : SigId) : ((w.setMem m).sig x).emitQueue = (w.sig x).emitQueue := rfl
@[grind =] theorem setMem_depth (w : World) (m : Mem) (x : SigId) : ((w.setMem m).sig x).depth = (w.sig x).depth := rfl
@[grind =] theorem setMem_maxDepth (w : World) (m : Mem) (x : SigId) : ((w.setMem m).sig x).maxDepth = (w.sig x).maxDepth := rfl
@[grind =] theorem setMem_wasBlocked (w : World) (m : Mem) (x : SigId) : ((w.setMem m).sig x).wasBlocked = (w.sig x).wasBlocked := rfl
@[simp, grind =] theorem logRet_emitter (w : World) (em : Option Nat) (src : Option SigId) (b : Base) (r : Res) : (w.logRet em src b r).emitter = w.emitter := rfl
@[simp, grind =] theorem logRet_hook (w : World) (em : Option Nat) (src : Option SigId) (b : Base) (r : Res) : (w.logRet em src b r).hook = w.hook := rfl
@[simp, grind =] theorem logRet_dead (w : World) (em : Option Nat) (src : Option SigId) (b : Base) (r : Res) : (w.logRet em src b r).dead = w.dead := rfl
@[simp, grind =] theorem logRet_thread (w : World) (em : Option Nat) (src : Option SigId) (b : Base) (r : Res) : (w.logRet em src b r).thread = w.thread := rfl
@[simp, grind =] theorem logRet_tq (w : World) (em : Option Nat) (src : Option SigId) (b : Base) (r : Res) : (w.logRet em src b r).tq = w.tq := rfl
@[simp, grind =] theorem logRet_mem (w : World) (em : Option Nat) (src : Option SigId) (b : Base) (r : Res) : (w.logRet em src b r).mem = w.mem := rfl
@[simp, grind =] theorem logRet_log (w : World) (em : Option Nat) (src : Option SigId) (b : Base) (r : Res) : (w.logRet em src b r).log = w.log ++ [.ret em src b r] := rfl
@[simp, grind =] theorem logRet_nextEm (w : World) (em : Option Nat) (src : Option SigId) (b : Base) (r : Res) : (w.logRet em src b r).nextEm = w.nextEm := rfl
@[simp, grind =] theorem logRet_nextSerial (w : World) (em : Option Nat) (src : Option SigId) (b : Base) (r : Res) : (w.logRet em src b r).nextSerial = w.nextSerial := rfl
@[simp] theorem logRet_sig (w : World) (em : Option Nat) (src : Option SigId) (b : Base) (r : Res) : (w.logRet em src b r).sig = w.sig := rfl
@[grind =] theorem logRet_sig_app (w : World) (em : Option Nat) (src : Option SigId) (b : Base) (r : Res) (x : SigId) : (w.logRet em src b r).sig x = w.sig x := rfl
@[grind =] theorem logRet_slots (w : World) (em : Option Nat) (src : Option SigId) (b : Base) (r : Res) (x : SigId) : ((w.logRet em src b r).sig x).slots = (w.sig x).slots := rfl
@[grind =] theorem logRet_prioInUse (w : World) (em : Option Nat) (src : Option SigId) (b : Base) (r : Res) (x : SigId) : ((w.logRet em src b r).sig x).prioInUse = (w.sig x).prioInUse := rfl
@[grind =] theorem logRet_blocked (w : World) (em : Option Nat) (src : Option SigId) (b : Base) (r : Res) (x : SigId) : ((w.logRet em src b r).sig x).blocked = (w.sig x).blocked := rfl
@[grind =] theorem logRet_paused (w : World) (em : Option Nat) (src : Option SigId) (b : Base) (r : Res) (x : SigId) : ((w.logRet em src b r).sig x).paused = (w.sig x).paused := rfl
@[grind =] theorem logRet_argsQueue (w : World) (em : Option Nat) (src : Option SigId) (b : Base) (r : Res) (x : SigId) : ((w.logRet em src b r).sig x).argsQueue = (w.sig x).argsQueue := rfl
@[grind =] theorem logRet_emitQueue (w : World) (em : Option Nat) (src : Option SigId) (b : Base) (r : Res) (x : SigId) : ((w.logRet em src b r).sig x).emitQueue = (w.sig x).emitQueue := rfl
@[grind =] theorem logRet_depth (w : World) (em : Option Nat) (src : Option SigId) (b : Base) (r : Res) (x : SigId) : ((w.logRet em src b r).sig x).depth = (w.sig x).depth := rfl
@[grind =] theorem logRet_maxDepth (w : World) (em : Option Nat) (src : Option SigId) (b : Base) (r : Res) (x : SigId) : ((w.logRet em src b r).sig x).maxDepth = (w.sig x).maxDepth := rfl
@[grind =] theorem logRet_wasBlocked (w : World) (em : Option Nat) (src : Option SigId) (b : Base) (r : Res) (x : SigId) : ((w.logRet em src b r).sig x).wasBlocked = (w.sig x).wasBlocked := rfl
@[simp, grind =] theorem logCall_emitter (w : World) (em : Option Nat) (src : Option SigId) (b : Base) (a : Args) : (w.logCall em src b a).emitter = w.emitter := rfl
@[simp, grind =] theorem logCall_hook (w : World) (em : Option Nat) (src : Option SigId) (b : Base) (a : Args) : (w.logCall em src b a).hook = w.hook := rfl
@[simp, grind =] theorem logCall_dead (w : World) (em : Option Nat) (src : Option SigId) (b : Base) (a : Args) : (w.logCall em src b a).dead = w.dead := rfl
@[simp, grind =] theorem logCall_thread (w : World) (em : Option Nat) (src : Option SigId) (b : Base) (a : Args) : (w.logCall em src b a).thread = w.thread := rfl
@[simp, grind =] theorem logCall_tq (w : World) (em : Option Nat) (src : Option SigId) (b : Base) (a : Args) : (w.logCall em src b a).tq = w.tq := rfl
@[simp, grind =] theorem logCall_mem (w : World) (em : Option Nat) (src : Option SigId) (b : Base) (a : Args) : (w.logCall em src b a).mem = w.mem := rfl
@[simp, grind =] theorem logCall_log (w : World) (em : Option Nat) (src : Option SigId) (b : Base) (a : Args) : (w.logCall em src b a).log = w.log ++ [.call em src (match src with | none => 0 | some s => (w.sig s).depth) w.emitter w.thread b a] := rfl
@[simp, grind =] theorem logCall_nextEm (w : World) (em : Option Nat) (src : Option SigId) (b : Base) (a : Args) : (w.logCall em src b a).nextEm = w.nextEm := rfl
@[simp, grind =] theorem logCall_nextSerial (w : World) (em : Option Nat) (src : Option SigId) (b : Base) (a : Args) : (w.logCall em src b a).nextSerial = w.nextSerial := rfl
@[simp] theorem logCall_sig (w : World) (em : Option Nat) (src : Option SigId) (b : Base) (a : Args) : (w.logCall em src b a).sig = w.sig := rfl
@[grind =] theorem logCall_sig_app (w : World) (em : Option Nat) (src : Option SigId) (b : Base) (a : Args) (x : SigId) : (w.logCall em src b a).sig x = w.sig x := rfl
@[grind =] theorem logCall_slots (w : World) (em : Option Nat) (src : Option SigId) (b : Base) (a : Args) (x : SigId) : ((w.logCall em src b a).sig x).slots = (w.sig x).slots := rfl
@[grind =] theorem logCall_prioInUse (w : World) (em : Option Nat) (src : Option SigId) (b : Base) (a : Args) (x : SigId) : ((w.logCall em src b a).sig x).prioInUse = (w.sig x).prioInUse := rfl
@[grind =] theorem logCall_blocked (w : World) (em : Option Nat) (src : Option SigId) (b : Base) (a : Args) (x : SigId) : ((w.logCall em src b a).sig x).blocked = (w.sig x).blocked := rfl
@[grind =] theorem logCall_paused (w : World) (em : Option Nat) (src : Option SigId) (b : Base) (a : Args) (x : SigId) : ((w.logCall em src b a).sig x).paused = (w.sig x).paused := rfl
@[grind =] theorem logCall_argsQueue (w : World) (em : Option Nat) (src : Option SigId) (b : Base) (a : Args) (x : SigId) : ((w.logCall em src b a).sig x).argsQueue = (w.sig x).argsQueue := rfl
@[grind =] theorem logCall_emitQueue (w : World) (em : Option Nat) (src : Option SigId) (b : Base) (a : Args) (x : SigId) : ((w.logCall em src b a).sig x).emitQueue = (w.sig x).emitQueue := rfl
@[grind =] theorem logCall_depth (w : World) (em : Option Nat) (src : Option SigId) (b : Base) (a : Args) (x : SigId) : ((w.logCall em src b a).sig x).depth = (w.sig x).depth := rfl
@[grind =] theorem logCall_maxDepth (w : World) (em : Option Nat) (src : Option SigId) (b : Base) (a : Args) (x : SigId) : ((w.logCall em src b a).sig x).maxDepth = (w.sig x).maxDepth := rfl
@[grind =] theorem logCall_wasBlocked (w : World) (em : Option Nat) (src : Option SigId) (b : Base) (a : Args) (x : SigId) : ((w.logCall em src b a).sig x).wasBlocked = (w.sig x).wasBlocked := rfl
@[simp, grind =] theorem run_emitter (env : Env) (w : World) (a : Act) : (Act.run env w a).1.emitter = w.emitter := (frame_run env w a).emitter
@[simp, grind =] theorem run_thread (env : Env) (w : World) (a : Act) : (Act.run env w a).1.thread = w.thread := (frame_run env w a).thread
@[simp, grind =] theorem run_tq (env : Env) (w : World) (a : Act) : (Act.run env w a).1.tq = w.tq := (frame_run env w a).tq
@[simp, grind =] theorem run_mem (env : Env) (w : World) (a : Act) : (Act.run env w a).1.mem = w.mem := (frame_run env w a).mem
@[simp, grind =] theorem run_log (env : Env) (w : World) (a : Act) : (Act.run env w a).1.log = w.log := (frame_run env w a).log
@[simp, grind =] theorem run_nextEm (env : Env) (w : World) (a : Act) : (Act.run env w a).1.nextEm = w.nextEm := (frame_run env w a).nextEm
@[simp, grind =] theorem run_depth (env : Env) (w : World) (a : Act) (x : SigId) : ((Act.run env w a).1.sig x).depth = (w.sig x).depth := ((frame_run env w a).sig x).depth
@[simp, grind =] theorem run_maxDepth (env : Env) (w : World) (a : Act) (x : SigId) : ((Act.run env w a).1.sig x).maxDepth = (w.sig x).maxDepth := ((frame_run env w a).sig x).maxDepth
@[simp, grind =] theorem run_emitQueue (env : Env) (w : World) (a : Act) (x : SigId) : ((Act.run env w a).1.sig x).emitQueue = (w.sig x).emitQueue := ((frame_run env w a).sig x).emitQueue
@[simp, grind =] theorem run_argsQueue (env : Env) (w : World) (a : Act) (x : SigId) : ((Act.run env w a).1.sig x).argsQueue = (w.sig x).argsQueue := ((frame_run env w a).sig x).argsQueue
@[simp, grind =] theorem block_emitter (env : Env) (w : World) (s : SigId) (ex : List SigId) : (w.block env s ex).emitter = w.emitter := (frame_block env w s ex).emitter
@[simp, grind =] theorem block_thread (env : Env) (w : World) (s : SigId) (ex : List SigId) : (w.block env s ex).thread = w.thread := (frame_block env w s ex).thread
@[simp, grind =] theorem block_tq (env : Env) (w : World) (s : SigId) (ex : List SigId) : (w.block env s ex).tq = w.tq := (frame_block env w s ex).tq
@[simp, grind =] theorem block_mem (env : Env) (w : World) (s : SigId) (ex : List SigId) : (w.block env s ex).mem = w.mem := (frame_block env w s ex).mem
@[simp, grind =] theorem block_log (env : Env) (w : World) (s : SigId) (ex : List SigId) : (w.block env s ex).log = w.log := (frame_block env w s ex).log
@[simp, grind =] theorem block_nextEm (env : Env) (w : World) (s : SigId) (ex : List SigId) : (w.block env s ex).nextEm = w.nextEm := (frame_block env w s ex).nextEm
@[simp, grind =] theorem block_hook (env : Env) (w : World) (s : SigId) (ex : List SigId) : (w.block env s ex).hook = w.hook := (frame_block env w s ex).hook
@[simp, grind =] theorem block_depth (env : Env) (w : World) (s : SigId) (ex : List SigId) (x : SigId) : ((w.block env s ex).sig x).depth = (w.sig x).depth := ((frame_block env w s ex).sig x).depth
@[simp, grind =] theorem block_maxDepth (env : Env) (w : World) (s : SigId) (ex : List SigId) (x : SigId) : ((w.block env s ex).sig x).maxDepth = (w.sig x).maxDepth := ((frame_block env w s ex).sig x).maxDepth
@[simp, grind =] theorem block_emitQueue (env : Env) (w : World) (s : SigId) (ex : List SigId) (x : SigId) : ((w.block env s ex).sig x).emitQueue = (w.sig x).emitQueue := ((frame_block env w s ex).sig x).emitQueue
@[simp, grind =] theorem block_argsQueue (env : Env) (w : World) (s : SigId) (ex : List SigId) (x : SigId) : ((w.block env s ex).sig x).argsQueue = (w.sig x).argsQueue := ((frame_block env w s ex).sig x).argsQueue
@[simp, grind =] theorem unblock_emitter (env : Env) (w : World) (s : SigId) : (w.unblock env s).emitter = w.emitter := (frame_unblock env w s).emitter
@[simp, grind =] theorem unblock_thread (env : Env) (w : World) (s : SigId) : (w.unblock env s).thread = w.thread := (frame_unblock env w s).thread
@[simp, grind =] theorem unblock_tq (env : Env) (w : World) (s : SigId) : (w.unblock env s).tq = w.tq := (frame_unblock env w s).tq
@[simp, grind =] theorem unblock_mem (env : Env) (w : World) (s : SigId) : (w.unblock env s).mem = w.mem := (frame_unblock env w s).mem
@[simp, grind =] theorem unblock_log (env : Env) (w : World) (s : SigId) : (w.unblock env s).log = w.log := (frame_unblock env w s).log
@[simp, grind =] theorem unblock_nextEm (env : Env) (w : World) (s : SigId) : (w.unblock env s).nextEm = w.nextEm := (frame_unblock env w s).nextEm
@[simp, grind =] theorem unblock_hook (env : Env) (w : World) (s : SigId) : (w.unblock env s).hook = w.hook := (frame_unblock env w s).hook
@[simp, grind =] theorem unblock_depth (env : Env) (w : World) (s : SigId) (x : SigId) : ((w.unblock env s).sig x).depth = (w.sig x).depth := ((frame_unblock env w s).sig x).depth
@[simp, grind =] theorem unblock_maxDepth (env : Env) (w : World) (s : SigId) (x : SigId) : ((w.unblock env s).sig x).maxDepth = (w.sig x).maxDepth := ((frame_unblock env w s).sig x).maxDepth
@[simp, grind =] theorem unblock_emitQueue (env : Env) (w : World) (s : SigId) (x : SigId) : ((w.unblock env s).sig x).emitQueue = (w.sig x).emitQueue := ((frame_unblock env w s).sig x).emitQueue
@[simp, grind =] theorem unblock_argsQueue (env : Env) (w : World) (s : SigId) (x : SigId) : ((w.unblock env s).sig x).argsQueue = (w.sig x).argsQueue := ((frame_unblock env w s).sig x).argsQueue

end Psygnal
