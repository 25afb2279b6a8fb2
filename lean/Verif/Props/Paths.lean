import Verif.Lemmas.PathMesh
import Verif.Lemmas.Flux

/-!
# Theorems about paths: C15, C16, C21 - C24
-/
namespace Traceon
open Spec V3

/-! ## C15 -/

/-- **C15.** For ordered breakpoints inside `[0, L]` and a positive mesh size (or any mesh size
factor): the samples are strictly increasing from `0` to `L`; there are `nf` samples per element;
every breakpoint is the end of an element; no element is longer than the mesh size; and between two
neighbouring breakpoints there are at least three elements, exactly as many as asked for by the
mesh size or factor. -/
theorem C15_discretize {L : ℝ} {bs : List ℝ} (hL : 0 ≤ L) (hs : bs.Pairwise (· ≤ ·))
    (hin : ∀ b ∈ bs, 0 ≤ b ∧ b ≤ L) {ms : Option ℝ} {mf : Option ℤ}
    (h1 : ∀ h, ms = some h → 0 < h) (h2 : ms.isSome ∨ mf.isSome) {nf : ℕ} (hnf : 0 < nf) :
    ∃ us, discretizePath L bs ms mf nf = some us ∧
      us.Pairwise (· < ·) ∧ us.head? = some 0 ∧ us.getLast? = some L ∧
      (∃ n, us.length = nf * n + 1) ∧
      (∀ b ∈ bs, ∃ k : ℕ, us[nf * k]? = some b) ∧
      (∀ h, ms = some h → ∀ (k : ℕ) x y, us[nf * k]? = some x → us[nf * (k + 1)]? = some y → y - x ≤ h) ∧
      (∀ p ∈ 0 :: bs ++ [L], ∀ q ∈ 0 :: bs ++ [L], p < q → (∀ r ∈ bs, ¬ (p < r ∧ r < q)) →
        ∃ n : ℕ, 3 ≤ n ∧ (us.filter (fun x => decide (p ≤ x ∧ x < q))).length = nf * n ∧
          (∀ h, ms = some h → (n : ℤ) = max ⌈(q - p) / h⌉ 3) ∧
          (ms = none → ∀ k, mf = some k → (n : ℤ) = 3 * max k 1)) := by
  have hg : GoodPath { func := fun _ => some 0, length := L, breaks := bs } :=
    ⟨hL, hs, hin, fun _ _ _ => ⟨_, rfl⟩⟩
  obtain ⟨us, hus, S⟩ := discretizePath_spec hg h1 h2 hnf
  refine ⟨us, hus, S.inc, S.first, by rw [S.last, List.getLast?_append]; rfl, S.mod,
    fun b hb => S.corner b (by simp [hb]), S.size, ?_⟩
  intro p hp q hq hpq hr
  obtain ⟨n, hn, hn3, hc⟩ := S.count p hp q hq hpq (by
    intro r hr' hr2
    simp only [List.cons_append, List.mem_cons, List.mem_append, List.not_mem_nil, or_false] at hr' hp hq
    rcases hr' with rfl | hr' | rfl
    · rcases hp with rfl | hp | rfl
      · exact absurd hr2.1 (lt_irrefl _)
      · have := (hin p hp).1; linarith [hr2.1]
      · linarith [hr2.1]
    · exact hr r hr' hr2
    · rcases hq with rfl | hq | rfl
      · linarith [hr2.2]
      · have := (hin q hq).2; linarith [hr2.2]
      · exact absurd hr2.2 (lt_irrefl _))
  refine ⟨n, hn3, hc, ?_, ?_⟩
  · rintro h rfl; exact hn
  · rintro rfl k rfl; exact hn

/-- a path of length 2 with a corner in the middle -/
example : discretizePath 2 [1] none (some 1) 1 = some [0, 1/3, 2/3, 1, 4/3, 5/3, 2] := by
  simp [discretizePath, discretizeLoop, sectionCount, linspaceOpen, List.range_succ]
  norm_num

example : discretizePath 2 [1] (some (1/4)) none 1 = some [0, 1/4, 1/2, 3/4, 1, 5/4, 3/2, 7/4, 2] := by
  have h1 : ⌈(1 : ℝ) / (1/4)⌉ = 4 := by norm_num
  have h2 : ⌈((2 : ℝ) - 1) / (1/4)⌉ = 4 := by norm_num
  simp [discretizePath, discretizeLoop, sectionCount, linspaceOpen, safeDiv] at *
  have h3 : Int.toNat 4 = 4 := rfl
  norm_num [List.range_succ, h1, h2, h3]

/-! ## C16 -/

/-- **C16.** Meshing a path succeeds and gives a chain of elements: with samples `0 = u₀ < u₁ < … = L`,
element `k` goes from sample `k` to sample `k+1` (in a higher order mesh: from `3k` to `3k+3` via
`3k+1` and `3k+2`), possibly reversed as a whole if the path has a name; if normals are not oriented,
or there is no name, every element starts in the point where the previous one ends. The whole chain
carries the name. -/
theorem C16_path_mesh {G : Geo V3} (hG : G.Lawful) {p : Path} (hp : GoodPath p) {ms : Option ℝ}
    {mf : Option ℤ} (h1 : ∀ h, ms = some h → 0 < h) (h2 : ms.isSome ∨ mf.isSome) (ho : Bool)
    (name : Option String) (ensure : Bool) :
    ∃ us M n, p.mesh G ms mf ho name ensure = some M ∧ Valid M ∧
      us.Pairwise (· < ·) ∧ us.head? = some 0 ∧ us.getLast? = some p.length ∧
      us.length = (if ho then 3 else 1) * n + 1 ∧ M.lines.length = n ∧
      M.lineCols = (if ho then 4 else 2) ∧ M.triangles = [] ∧
      Matches (SameLine G) ((List.range n).map (chainElement p us ho)) (lineShapes M) ∧
      M.physLines = (name.or p.name).elim [] (fun nm => [(nm, List.range n)]) ∧
      ((ensure = false ∨ name.or p.name = none) →
        Matches (SameShape G) ((List.range n).map (chainElement p us ho)) (lineShapes M) ∧
        ∀ (k : ℕ) e e', M.lines[k]? = some e → M.lines[k + 1]? = some e' → e[1]? = e'[0]?) := by
  obtain ⟨us, m, n, hm, S, hlen, hv, hc, ht, hpt, hls, hpl, hpg, hsh, hph⟩ := rawMesh_spec hp h1 h2 ho name
  obtain ⟨M, hM, r⟩ := Mesh.build_shapes hG m hv ensure
  have hMlen : M.lines.length = n := by
    have := r.lines.1
    rw [hsh] at this; simpa [lineShapes] using this.symm
  have htri : M.triangles = [] := by
    have := r.tris.1
    simp [triShapes, ht] at this
    exact List.eq_nil_of_length_eq_zero this.symm
  refine ⟨us, M, n, ?_, r.valid, S.inc, S.first, by rw [S.last, List.getLast?_append]; rfl, hlen, hMlen,
    r.cols.trans hc, htri, hsh ▸ r.lines, r.physLines.trans hph, ?_⟩
  · unfold Path.mesh; rw [hm]; exact hM
  intro hx
  have hex : Matches (SameShape G) (lineShapes m) (lineShapes M) := by
    rcases hx with hx | hx
    · exact r.linesExact hx
    · refine ⟨r.lines.1, fun k a b ha hb => r.linesOut k a b ?_ ha hb⟩
      rintro ⟨kv, hkv, _⟩
      rw [r.physLines, hph, hx] at hkv
      simp at hkv
  refine ⟨hsh ▸ hex, ?_⟩
  intro k e e' he he'
  have hk1 : k + 1 < n := by have := (List.getElem?_eq_some_iff.1 he').1; omega
  have hin : ∀ (j : ℕ) f, M.lines[j]? = some f → ∀ i ∈ f, i < M.points.length := fun j f hf =>
    (r.valid.lines f (List.mem_of_getElem? hf)).2
  have hshape : ∀ (j : ℕ) f, M.lines[j]? = some f → j < n →
      SameShape G (chainElement p us ho j) (coords M.points f) := by
    intro j f hf hj
    refine hex.2 j _ _ ?_ ?_
    · rw [hsh, List.getElem?_map, List.getElem?_range hj]; rfl
    · simp [lineShapes, hf]
  have hpos : ∀ i, i < us.length → ∃ q, us[i]?.bind p.func = some q := by
    intro i hi
    rw [← hpg i, ]
    exact ⟨m.points[i]'(by rw [hpl]; exact hi), by simp [hpl, hi]⟩
  have s1 := hshape k e he (by omega)
  have s2 := hshape (k + 1) e' he' hk1
  -- the shared sample
  have hidx : (if ho then 3 else 1) * (k + 1) < us.length := by
    rw [hlen]; have : (if ho then 3 else 1) * (k + 1) ≤ (if ho then 3 else 1) * n := Nat.mul_le_mul_left _ (by omega)
    omega
  obtain ⟨q, hq⟩ := hpos _ hidx
  have hlt : ∀ c, (if ho then 3 else 1) * (k + 1) + c < us.length → ∃ q, us[(if ho then 3 else 1) * (k + 1) + c]?.bind p.func = some q :=
    fun c hc => hpos _ hc
  have hce1 : (chainElement p us ho k)[1]? = some q := by
    have hk0 : (if ho then 3 else 1) * k < us.length := by
      rw [hlen]; have : (if ho then 3 else 1) * k ≤ (if ho then 3 else 1) * n := Nat.mul_le_mul_left _ (by omega)
      omega
    obtain ⟨q0, hq0⟩ := hpos _ hk0
    cases ho
    · simp only [Bool.false_eq_true, if_false, one_mul] at hq hq0
      simp [chainElement, chainIndices, hq, hq0]
    · simp only [if_true] at hq hq0
      simp [chainElement, chainIndices, List.filterMap_cons, hq, hq0]
  have hce2 : (chainElement p us ho (k + 1))[0]? = some q := by
    cases ho
    · simp only [Bool.false_eq_true, if_false, one_mul] at hq
      simp [chainElement, chainIndices, List.filterMap_cons, hq]
    · simp only [if_true] at hq
      simp [chainElement, chainIndices, List.filterMap_cons, hq]
  have hl1 : (coords M.points e).length = e.length := coords_length (hin k e he)
  have hl2 : (coords M.points e').length = e'.length := coords_length (hin (k+1) e' he')
  have getq : ∀ (f : Elem) (c : ℕ) (a : List V3), (∀ i ∈ f, i < M.points.length) →
      SameShape G a (coords M.points f) → a[c]? = some q →
      ∃ i z, f[c]? = some i ∧ M.points[i]? = some z ∧ G.eq z (G.trunc q) = true := by
    intro f c a hf hs ha
    have hc : c < (coords M.points f).length := by rw [← hs.1]; exact (List.getElem?_eq_some_iff.1 ha).1
    have h4 := hs.2 c q _ ha (List.getElem?_eq_getElem hc)
    have h5 := coords_getElem? hf c
    rw [List.getElem?_eq_getElem hc] at h5
    cases h6 : f[c]? with
    | none => rw [h6] at h5; simp at h5
    | some i =>
      rw [h6] at h5; simp only [Option.bind_some] at h5
      exact ⟨i, _, rfl, h5.symm, h4⟩
  obtain ⟨i, z, hi, hz, hze⟩ := getq e 1 _ (hin k e he) s1 hce1
  obtain ⟨j, w, hj, hw, hwe⟩ := getq e' 0 _ (hin (k+1) e' he') s2 hce2
  rw [hi, hj]
  congr 1
  by_contra hne
  have hzw : G.eq z w = true := hG.eq_trans hze (hG.eq_symm hwe)
  obtain ⟨hil, rfl⟩ := List.getElem?_eq_some_iff.1 hz
  obtain ⟨hjl, rfl⟩ := List.getElem?_eq_some_iff.1 hw
  have hd := List.pairwise_iff_getElem.1 r.distinct
  rcases Nat.lt_or_gt_of_ne hne with hlt' | hlt'
  · rw [hd i j hil hjl hlt'] at hzw; cases hzw
  · have h7 := hd j i hjl hil hlt'
    rw [hG.eq_symm hzw] at h7; cases h7

/-! ## C21, C22 -/

theorem pointsClose_self (a : V3) : pointsClose a a = true := by
  simp only [pointsClose, sub_self, abs_zero, decide_eq_true_eq]
  refine ⟨?_, ?_, ?_⟩ <;> positivity

theorem join_some {p q : Path} {a b : V3} (ha : p.endpoint = some a) (hb : q.start = some b)
    (hab : pointsClose a b = true) : ∃ r, p.join q = some r ∧ r.length = p.length + q.length ∧
      r.name = p.name ∧ r.breaks = p.breaks ++ [p.length] ++ q.breaks ∧
      (∀ t, 0 ≤ t → t ≤ p.length + q.length → t ≤ p.length → r.func t = p.func t) ∧
      (∀ t, 0 ≤ t → p.length < t → t ≤ p.length + q.length → r.func t = q.func (t - p.length)) ∧
      (∀ t, ¬ (0 ≤ t ∧ t ≤ p.length + q.length) → r.func t = none) := by
  simp only [Path.join, ha, hb, hab, Option.bind_eq_bind, Option.bind_some, Bool.not_true, Bool.false_eq_true,
    if_false]
  refine ⟨_, rfl, rfl, rfl, rfl, ?_, ?_, ?_⟩
  · intro t h0 h1 h2; simp [h0, h1, h2]
  · intro t h0 h1 h2; simp [h0, h2, not_le.2 h1]
  · intro t h; simp [h]

/-- **C21.** Two paths with lengths `≥ 0`, the first ending (within tolerance) where the second starts,
can be joined: the lengths add up, the first path is followed on `[0, |p|]` and the second after that;
it starts where `p` starts and ends where `q` ends. If the joint is exact then the second part is
followed from its very start. Paths whose ends are apart are refused, and so are parameters outside
the path. -/
theorem C21_join {p q : Path} (hp : 0 ≤ p.length) (hq : 0 ≤ q.length) {a b : V3}
    (ha : p.endpoint = some a) (hb : q.start = some b) :
    (pointsClose a b = false → p.join q = none) ∧
    (pointsClose a b = true → ∃ r, p.join q = some r ∧ r.length = p.length + q.length ∧
      r.start = p.start ∧ (0 < q.length ∨ a = b → r.endpoint = q.endpoint) ∧
      (∀ t, 0 ≤ t → t ≤ p.length → r.func t = p.func t) ∧
      (∀ s, 0 < s → s ≤ q.length → r.func (p.length + s) = q.func s) ∧
      (a = b → ∀ s, 0 ≤ s → s ≤ q.length → r.func (p.length + s) = q.func s) ∧
      (∀ t, t < 0 ∨ p.length + q.length < t → r.func t = none)) := by
  constructor
  · intro h; simp [Path.join, ha, hb, h]
  · intro h
    obtain ⟨r, hr, hl, _, _, h1, h2, h3⟩ := join_some ha hb h
    have h2' : ∀ s, 0 < s → s ≤ q.length → r.func (p.length + s) = q.func s := by
      intro s hs hs'
      rw [h2 _ (by linarith) (by linarith) (by linarith)]; congr 1; ring
    have h4 : a = b → ∀ s, 0 ≤ s → s ≤ q.length → r.func (p.length + s) = q.func s := by
      intro hab s hs hs'
      rcases hs.lt_or_eq with h5 | h5
      · exact h2' s h5 hs'
      · subst h5
        rw [add_zero, h1 _ hp (by linarith) le_rfl]
        exact ha.trans (hab ▸ hb.symm)
    refine ⟨r, hr, hl, h1 0 le_rfl (by linarith) hp, ?_, fun t h5 h6 => h1 t h5 (by linarith) h6, h2', h4, ?_⟩
    · rintro (h5 | h5)
      · unfold Path.endpoint; rw [hl]; exact h2' _ h5 le_rfl
      · unfold Path.endpoint; rw [hl]; exact h4 h5 _ hq le_rfl
    · rintro t (h5 | h5)
      · exact h3 t (fun h => absurd h.1 (by linarith))
      · exact h3 t (fun h => absurd h.2 (by linarith))

/-- **C21**, associativity: joining three paths (of positive length) succeeds with either bracketing or with
neither, and gives the same curve. -/
theorem C21_join_assoc {p q s : Path} (hp : 0 ≤ p.length) (hq : 0 < q.length) (hs : 0 ≤ s.length)
    {a b c d : V3} (ha : p.endpoint = some a) (hb : q.start = some b) (hc : q.endpoint = some c)
    (hd : s.start = some d) (h1 : pointsClose a b = true) (h2 : pointsClose c d = true) :
    ∃ pq qs l r, p.join q = some pq ∧ q.join s = some qs ∧ pq.join s = some l ∧ p.join qs = some r ∧
      l.func = r.func ∧ l.length = r.length ∧ l.name = r.name := by
  obtain ⟨pq, hpq, hl1, hn1, _, f1, f2, f3⟩ := join_some ha hb h1
  obtain ⟨qs, hqs, hl2, hn2, _, g1, g2, g3⟩ := join_some hc hd h2
  have e1 : pq.endpoint = some c := by
    unfold Path.endpoint; rw [hl1, f2 _ (by linarith) (by linarith) le_rfl, ← hc, Path.endpoint]; congr 1; ring
  have e2 : qs.start = some b := by
    unfold Path.start; rw [g1 0 le_rfl (by linarith) hq.le]; exact hb
  obtain ⟨l, hl, hl3, hn3, _, k1, k2, k3⟩ := join_some e1 hd h2
  obtain ⟨r, hr, hl4, hn4, _, m1, m2, m3⟩ := join_some ha e2 h1
  refine ⟨pq, qs, l, r, hpq, hqs, hl, hr, ?_, by rw [hl3, hl4, hl1, hl2]; ring, by rw [hn3, hn4, hn1]⟩
  rw [hl1] at k1 k2 k3
  rw [hl2] at m1 m2 m3
  funext t
  by_cases ht : 0 ≤ t ∧ t ≤ p.length + q.length + s.length
  · obtain ⟨t0, t1⟩ := ht
    by_cases t2 : t ≤ p.length
    · rw [k1 t t0 t1 (by linarith), m1 t t0 (by linarith) t2, f1 t t0 (by linarith) t2]
    · have t2 := not_le.1 t2
      rw [m2 t t0 t2 (by linarith)]
      by_cases t3 : t ≤ p.length + q.length
      · rw [k1 t t0 t1 t3, f2 t t0 t2 t3, g1 _ (by linarith) (by linarith) (by linarith)]
      · have t3 := not_le.1 t3
        rw [k2 t t0 t3 t1, g2 _ (by linarith) (by linarith) (by linarith)]
        congr 1; ring
  · rw [k3 t ht, m3 t (by rw [← add_assoc]; exact ht)]

/-! A straight line, exactly. -/

theorem norm_sub_pos {a b : V3} (h : a ≠ b) : 0 < norm (a - b) := norm_pos (fun h' => h (V3.sub_eq_zero.1 h'))

theorem line_func {a b : V3} (h : a ≠ b) (s : ℝ) :
    (Path.line a b).func s = some ((1 - s / norm (a - b)) * a + (s / norm (a - b)) * b) := by
  simp [Path.line, safeDiv, (norm_sub_pos h).ne']

theorem line_start {a b : V3} (h : a ≠ b) : (Path.line a b).start = some a := by
  unfold Path.start; rw [line_func h]; congr 1; ext <;> simp

theorem line_end {a b : V3} (h : a ≠ b) : (Path.line a b).endpoint = some b := by
  unfold Path.endpoint; rw [line_func h]
  have : (Path.line a b).length / norm (a - b) = 1 := div_self (norm_sub_pos h).ne'
  rw [this]; congr 1; ext <;> simp

theorem line_good {a b : V3} (h : a ≠ b) : GoodPath (Path.line a b) :=
  ⟨(norm_sub_pos h).le, by simp [Path.line], by simp [Path.line], fun u _ _ => ⟨_, line_func h u⟩⟩

/-- **C22**, the part that holds: if the second path has no breakpoints of its own (as for `line_to`,
`arc_to` and `close`), every corner of the first path and the joint are breakpoints of the joined path,
at the same location in space, and the joined path is again one that can be meshed with the
guarantees of C15. -/
theorem C22_breakpoints_partial {p q : Path} (hp : GoodPath p) (hq : GoodPath q) (hbq : q.breaks = [])
    {a b : V3} (ha : p.endpoint = some a) (hb : q.start = some b) (hab : pointsClose a b = true) :
    ∃ r, p.join q = some r ∧ GoodPath r ∧
      (∀ c ∈ p.breaks, c ∈ r.breaks ∧ r.func c = p.func c) ∧
      (p.length ∈ r.breaks ∧ r.func p.length = some a) ∧
      r.breaks.length = p.breaks.length + 1 := by
  obtain ⟨r, hr, hl, _, hb', h1, h2, h3⟩ := join_some ha hb hab
  have hpl := hp.len
  have hql := hq.len
  rw [hbq, List.append_nil] at hb'
  refine ⟨r, hr, ⟨by rw [hl]; linarith, ?_, ?_, ?_⟩, ?_, ⟨by simp [hb'], ?_⟩, by simp [hb']⟩
  · rw [hb', List.pairwise_append]
    exact ⟨hp.sorted, by simp, fun x hx y hy => by simp at hy; rw [hy]; exact (hp.inside x hx).2⟩
  · intro c hc
    rw [hb', List.mem_append] at hc
    rw [hl]
    rcases hc with hc | hc
    · have := hp.inside c hc; exact ⟨this.1, by linarith⟩
    · simp at hc; rw [hc]; exact ⟨hpl, by linarith⟩
  · intro u h0 h4
    rw [hl] at h4
    by_cases h5 : u ≤ p.length
    · rw [h1 u h0 h4 h5]; exact hp.defined u h0 h5
    · rw [h2 u h0 (not_le.1 h5) h4]; exact hq.defined _ (by linarith) (by linarith)
  · intro c hc
    have := hp.inside c hc
    exact ⟨by simp [hb', hc], h1 c this.1 (by linarith) this.2⟩
  · rw [h1 _ hpl (by linarith) le_rfl]; exact ha

/-- `line_to` extends any good path (C22 applies to it); the end point is the requested one. -/
theorem C22_line_to {p : Path} (hp : GoodPath p) {a b : V3} (ha : p.endpoint = some a) (hab : a ≠ b) :
    ∃ r, p.lineTo b = some r ∧ GoodPath r ∧ r.length = p.length + norm (a - b) ∧
      r.start = p.start ∧ r.endpoint = some b ∧ r.breaks = p.breaks ++ [p.length] ∧
      (∀ c ∈ p.breaks, r.func c = p.func c) ∧ r.func p.length = some a ∧ r.name = p.name ∧
      (∀ t, 0 ≤ t → t ≤ p.length → r.func t = p.func t) ∧
      (∀ s, 0 ≤ s → s ≤ norm (a - b) →
        r.func (p.length + s) = some ((1 - s / norm (a - b)) * a + (s / norm (a - b)) * b)) := by
  obtain ⟨r, hr, hg, h1, h2, _⟩ := C22_breakpoints_partial hp (line_good hab) rfl ha (line_start hab)
    (pointsClose_self a)
  obtain ⟨_, h3⟩ := C21_join hp.len (line_good hab).len ha (line_start hab)
  obtain ⟨r', hr', hl, hs, he, h4, _, h5, _⟩ := h3 (pointsClose_self a)
  obtain ⟨r'', hr'', _, hn, hb, _⟩ := join_some ha (line_start hab) (pointsClose_self a)
  rw [hr] at hr' hr''
  cases hr'; cases hr''
  refine ⟨r, by simp [Path.lineTo, ha, hr], hg, hl, hs, (he (Or.inr rfl)).trans (line_end hab), by simpa [Path.line] using hb,
    fun c hc => (h1 c hc).2, h2.2, hn, h4, ?_⟩
  intro s hs0 hs1
  rw [h5 rfl s hs0 hs1, line_func hab]

/-- the witness against C22: a corner at (1,0,0), a second path with a corner -/
noncomputable def exFirst : Path := Path.line 0 ⟨3, 0, 0⟩
noncomputable def exCorner : Path := { func := fun t => some (if t ≤ 1 then ⟨3, 0, t⟩ else ⟨2 + t, 0, 1⟩), length := 2, breaks := [1] }

theorem exFirst_len : exFirst.length = 3 := by
  have : norm ((0 : V3) - ⟨3, 0, 0⟩) = 3 := by
    unfold V3.norm dot; simp
  exact this

theorem exFirst_ne : (0 : V3) ≠ ⟨3, 0, 0⟩ := by
  intro h; have := congrArg V3.x h; simp at this

/-- **C22 is false as stated.** Joining a straight line of length 3 with an L-shaped path whose corner is
at (3, 0, 1): the corner is not at any breakpoint of the joined path, and its breakpoints are not even
in ascending order, so the samples used for the mesh run back over the first path. -/
theorem C22_refuted : GoodPath exFirst ∧ GoodPath exCorner ∧ exFirst.endpoint = exCorner.start ∧
    ∃ r, exFirst.join exCorner = some r ∧
      exCorner.func 1 = some ⟨3, 0, 1⟩ ∧ 1 ∈ exCorner.breaks ∧
      (∀ c ∈ r.breaks, r.func c ≠ some ⟨3, 0, 1⟩) ∧ r.breaks = [3, 1] ∧
      ∃ us, discretizePath r.length r.breaks none (some 1) 1 = some us ∧ ¬ us.Pairwise (· < ·) := by
  have hs : exCorner.start = some ⟨3, 0, 0⟩ := by simp [Path.start, exCorner]
  have he : exFirst.endpoint = some ⟨3, 0, 0⟩ := line_end exFirst_ne
  refine ⟨line_good exFirst_ne, ⟨by simp [exCorner], by simp [exCorner], ?_, fun u _ _ => ⟨_, rfl⟩⟩, he.trans hs.symm, ?_⟩
  · intro b hb; simp [exCorner] at hb; subst hb; simp [exCorner]
  obtain ⟨r, hr, hl, _, hb, h1, h2, h3⟩ := join_some he hs (pointsClose_self _)
  have hbr : r.breaks = [3, 1] := by rw [hb, exFirst_len]; simp [exFirst, exCorner, Path.line]
  refine ⟨r, hr, by simp [exCorner], by simp [exCorner], ?_, hbr, ?_⟩
  · have hcl : exCorner.length = 2 := rfl
    intro c hc
    rw [hbr] at hc
    have : c ≤ exFirst.length ∧ 0 ≤ c := by
      rw [exFirst_len]; simp at hc; rcases hc with rfl | rfl <;> norm_num
    rw [h1 c this.2 (by linarith [this.1]) this.1, exFirst, line_func exFirst_ne]
    intro h
    have := congrArg (fun o => Option.map V3.z o) h
    simp at this
  · have hlen : r.length = 5 := by rw [hl, exFirst_len]; norm_num [exCorner]
    rw [hbr, hlen]
    refine ⟨[0, 1, 2, 3, 3 - 2/3, 3 - 4/3, 1, 1 + 4/3, 1 + 8/3, 5], ?_, ?_⟩
    · simp [discretizePath, discretizeLoop, sectionCount, linspaceOpen, List.range_succ]
      norm_num
    · norm_num

end Traceon
