import Verif.Props.Plot7

/-!
# C98: figures and windows
-/
namespace Traceon
open Spec Plotting

variable (order : List String → List String)

theorem plot_last (s : State) (fs : List Figure) (f : Figure) (h : s.figures = fs ++ [f]) (c : Cmd) : s.plot order c = { s with figures := fs ++ [(f.run order c).getD f] } := by
  unfold State.plot
  have he : s.ensure = s := by
    unfold State.ensure
    rw [if_neg (by rw [h]; simp)]
  rw [he]
  simp only [h, List.getLast?_append, List.getLast?_singleton, Option.some_or, List.dropLast_concat]
  cases f.run order c with
  | none => rw [Option.getD_none, ← h]
  | some f' => rfl

theorem plots_last (cs : List Cmd) : ∀ (s : State) (fs : List Figure) (f : Figure), s.figures = fs ++ [f] → s.calls order (cs.map .plot) = { s with figures := fs ++ [drawn order f cs] } := by
  induction cs with
  | nil => intro s fs f h; show s = _; rw [drawn, List.foldl_nil, ← h]
  | cons c cs ih =>
    intro s fs f h
    show (s.plot order c).calls order (cs.map .plot) = _
    rw [plot_last order s fs f h, ih _ fs ((f.run order c).getD f) rfl]
    rfl

theorem figures_calls (fs : List (Bool × List Cmd)) : ∀ s : State, s.calls order (fs.flatMap figureCalls) = { s with figures := s.figures ++ fs.map fun bc => drawn order { showLegend := bc.1 } bc.2 } := by
  induction fs with
  | nil => intro s; simp [State.calls]
  | cons bc fs ih =>
    intro s
    rw [List.flatMap_cons]
    show (figureCalls bc ++ _).foldl _ s = _
    rw [List.foldl_append]
    have h1 : (figureCalls bc).foldl (fun s c => s.call order c) s = { s with figures := s.figures ++ [drawn order { showLegend := bc.1 } bc.2] } :=
      plots_last order bc.2 (s.newFigure bc.1) s.figures { showLegend := bc.1 } rfl
    rw [h1]
    show State.calls order _ (fs.flatMap figureCalls) = _
    rw [ih]
    simp

/-- C98: figures that are made one after the other, with anything drawn in each, are shown by `show` in windows of their own, in order, each with all that was drawn in it; nothing remains to be shown afterwards. The windows
opened before stay, and so do figures that had not yet been shown: they come first. -/
theorem C98_session (fs : List (Bool × List Cmd)) (s : State) :
    s.calls order (fs.flatMap figureCalls ++ [.show]) = { figures := [], windows := s.windows ++ s.figures.map Figure.show ++ fs.map fun bc => (drawn order { showLegend := bc.1 } bc.2).show } := by
  have : s.calls order (fs.flatMap figureCalls ++ [.show]) = (s.calls order (fs.flatMap figureCalls)).show := List.foldl_append
  rw [this, figures_calls]
  simp [State.show, Function.comp_def]

/-- C98: without a figure, something drawn goes to a new figure with a legend. -/
theorem C98_implicit (c : Cmd) (cs : List Cmd) (s : State) (h : s.figures = []) : s.calls order ((c :: cs).map .plot) = s.calls order (figureCalls (true, c :: cs)) := by
  have h1 : s.plot order c = (s.newFigure true).plot order c := by
    have e1 : s.ensure = s.newFigure true := by unfold State.ensure; rw [if_pos (by rw [h]; rfl)]
    have e2 : (s.newFigure true).ensure = s.newFigure true := by
      unfold State.ensure
      rw [if_neg (by simp [State.newFigure])]
    unfold State.plot
    rw [e1, e2]
  show (s.plot order c).calls order (cs.map .plot) = ((s.newFigure true).plot order c).calls order (cs.map .plot)
  rw [h1]

/-- C98: what is drawn goes to the last figure only. -/
theorem C98_last (c : Cmd) (s : State) (fs : List Figure) (f : Figure) (h : s.figures = fs ++ [f]) : (s.plot order c).windows = s.windows ∧ (s.plot order c).figures = fs ++ [drawn order f [c]] := by
  rw [plot_last order s fs f h]
  exact ⟨rfl, rfl⟩

/-- C98: calling `show` again opens no window. -/
theorem C98_again (s : State) : s.show.show = s.show := by simp [State.show]

theorem plotMesh_some {order : List String → List String} {m : Mesh V3} {sn : Bool} {cs : Dict String} {f f' : Figure} (h : f.plotMesh order m sn cs = some f') : ∃ new leg,
    f' = { f with toPlot := f.toPlot ++ new, legendEntries := f.legendEntries ++ leg, is2d := f.is2d && m.is2d realThirds } := by
  unfold Figure.plotMesh at h
  by_cases h1 : m.triangles = [] <;> by_cases h2 : m.lines = [] <;> simp [h1, h2, Option.bind_eq_some_iff] at h
  · obtain ⟨a, -, b, -, h⟩ := h
    rw [← h]
    exact ⟨_, _, rfl⟩
  · obtain ⟨a, -, b, -, h⟩ := h
    rw [← h]
    exact ⟨_, _, rfl⟩
  · obtain ⟨a, -, b, -, c, -, d, -, h⟩ := h
    rw [← h]
    exact ⟨_, _, rfl⟩

theorem plotCharge_some {x : Excitation ℝ V3} {e g : List ℝ} {cm : String} {f f' : Figure} (h : f.plotChargeDensity x e g cm = some f') : ∃ new,
    f' = { f with toPlot := f.toPlot ++ new, is2d := f.is2d && x.mesh.is2d realThirds } := by
  unfold Figure.plotChargeDensity at h
  by_cases h1 : x.mesh.triangles = [] <;> by_cases h2 : x.mesh.lines = [] <;> simp [h1, h2, Option.bind_eq_some_iff] at h
  · obtain ⟨a, -, h⟩ := h
    rw [← h]
    exact ⟨_, rfl⟩
  · obtain ⟨a, -, h⟩ := h
    rw [← h]
    exact ⟨_, rfl⟩
  · obtain ⟨a, -, b, -, h⟩ := h
    rw [← h]
    exact ⟨_, rfl⟩

/-- What the command keeps. -/
theorem run_keeps {order : List String → List String} {f f' : Figure} {c : Cmd} (h : f.run order c = some f') :
    (∃ new, f'.toPlot = f.toPlot ++ new) ∧ (∃ leg, f'.legendEntries = f.legendEntries ++ leg) ∧ f'.showLegend = f.showLegend ∧ (f'.is2d = true ↔ f.is2d = true ∧ Cmd2d c) := by
  cases c with
  | mesh m sn cs =>
    change f.plotMesh order m sn cs = some f' at h
    obtain ⟨new, leg, rfl⟩ := plotMesh_some h
    refine ⟨⟨new, rfl⟩, ⟨leg, rfl⟩, rfl, ?_⟩
    show (f.is2d && m.is2d realThirds) = true ↔ _
    rw [Bool.and_eq_true]; rfl
  | equipotentialLines p s l1 l2 N0 N1 cm n col =>
    change f.plotEquipotentialLines p s l1 l2 N0 N1 cm n col = some f' at h
    unfold Figure.plotEquipotentialLines at h
    simp only [Option.bind_eq_bind] at h
    obtain ⟨g, -, h⟩ := Option.bind_eq_some_iff.1 h
    cases h
    exact ⟨⟨_, rfl⟩, ⟨[], by simp⟩, rfl, by simp [Cmd2d]⟩
  | trajectories ts b col =>
    change some (f.plotTrajectories ts b col) = some f' at h
    rw [C96_shown] at h
    cases h
    exact ⟨⟨_, rfl⟩, ⟨[], by simp⟩, rfl, by simp [Cmd2d]⟩
  | chargeDensity x e mg cm =>
    change f.plotChargeDensity x e mg cm = some f' at h
    obtain ⟨new, rfl⟩ := plotCharge_some h
    refine ⟨⟨new, rfl⟩, ⟨[], by simp⟩, rfl, ?_⟩
    show (f.is2d && x.mesh.is2d realThirds) = true ↔ _
    rw [Bool.and_eq_true]; rfl

/-- C98: nothing that was drawn in a figure is taken away by drawing more. In particular the window of `C98_session` has everything in it, in the order in which it was drawn, and a call that raises does not change the figure. -/
theorem C98_keeps (f : Figure) (cs cs' : List Cmd) : (∃ new, (drawn order f (cs ++ cs')).toPlot = (drawn order f cs).toPlot ++ new) ∧ (∃ leg, (drawn order f (cs ++ cs')).legendEntries = (drawn order f cs).legendEntries ++ leg) ∧
    (drawn order f cs).showLegend = f.showLegend := by
  have one : ∀ (cs : List Cmd) (f : Figure), (∃ new, (drawn order f cs).toPlot = f.toPlot ++ new) ∧ (∃ leg, (drawn order f cs).legendEntries = f.legendEntries ++ leg) ∧ (drawn order f cs).showLegend = f.showLegend := by
    intro cs
    induction cs with
    | nil => intro f; exact ⟨⟨[], by simp [drawn]⟩, ⟨[], by simp [drawn]⟩, rfl⟩
    | cons c cs ih =>
      intro f
      obtain ⟨⟨n, h1⟩, ⟨l, h2⟩, h3⟩ := ih ((f.run order c).getD f)
      have hd : drawn order f (c :: cs) = drawn order ((f.run order c).getD f) cs := rfl
      rw [hd, h1, h2, h3]
      cases hr : f.run order c with
      | none => exact ⟨⟨n, rfl⟩, ⟨l, rfl⟩, rfl⟩
      | some f' =>
        obtain ⟨⟨n', k1⟩, ⟨l', k2⟩, k3, -⟩ := run_keeps hr
        rw [Option.getD_some, k1, k2, k3]
        exact ⟨⟨n' ++ n, by simp⟩, ⟨l' ++ l, by simp⟩, rfl⟩
  have hd : drawn order f (cs ++ cs') = drawn order (drawn order f cs) cs' := List.foldl_append
  rw [hd]
  exact ⟨(one cs' _).1, (one cs' _).2.1, (one cs f).2.2⟩

/-- C98: what a window shows of the figure: everything drawn, the legend if asked for, and axes for two dimensions exactly if all meshes that were drawn (without raising) are two-dimensional. -/
theorem C98_window (b : Bool) (cs : List Cmd) : (drawn order { showLegend := b } cs).show.objects = (drawn order { showLegend := b } cs).toPlot.flatten ∧
    (drawn order { showLegend := b } cs).show.legend = (if b then some (drawn order { showLegend := b } cs).legendEntries else none) ∧
    ((∀ c ∈ cs, ∀ f, (Figure.run order f c).isSome = true) → ((drawn order { showLegend := b } cs).show.axes2d = true ↔ ∀ c ∈ cs, Cmd2d c)) := by
  refine ⟨rfl, ?_, fun hall => ?_⟩
  · show (if (drawn order { showLegend := b } cs).showLegend then _ else none) = _
    rw [(C98_keeps order { showLegend := b } cs []).2.2]
  · show (drawn order { showLegend := b } cs).is2d = true ↔ _
    have : ∀ (cs : List Cmd) (f : Figure), (∀ c ∈ cs, ∀ f, (Figure.run order f c).isSome = true) → ((drawn order f cs).is2d = true ↔ f.is2d = true ∧ ∀ c ∈ cs, Cmd2d c) := by
      intro cs
      induction cs with
      | nil => intro f _; simp [drawn]
      | cons c cs ih =>
        intro f hall
        have hd : drawn order f (c :: cs) = drawn order ((f.run order c).getD f) cs := rfl
        obtain ⟨f', hr⟩ := Option.isSome_iff_exists.1 (hall c (by simp) f)
        rw [hd, ih _ (fun c hc => hall c (by simp [hc])), hr, Option.getD_some, (run_keeps hr).2.2.2]
        simp only [List.forall_mem_cons, and_assoc]
    rw [this cs _ hall]
    simp

/-- The hypothesis of `C98_window` is met by trajectories; two figures are shown. -/
theorem C98_example (t u : List (List V3)) : (∀ c ∈ [Cmd.trajectories t {} "red"], ∀ f, (Figure.run order f c).isSome = true) ∧
    State.calls order {} [.plot (.trajectories t {} "red"), .newFigure false, .plot (.trajectories u {} "blue"), .show, .show] =
      { figures := [], windows := [(Figure.plotTrajectories t {} "red" {}).show, (Figure.plotTrajectories u {} "blue" { showLegend := false }).show] } := by
  refine ⟨fun c hc f => ?_, ?_⟩
  · rw [List.mem_singleton] at hc; rw [hc]; rfl
  · rfl

end Traceon
