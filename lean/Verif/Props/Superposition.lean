import Verif.Spec.Solve
import Verif.Props.Excitation2

/-!
# C35: superposition of unit fields
-/
namespace Traceon
open Spec
variable {V P : Type}

theorem Dict.get_mapKey {α β : Type _} (d : Dict α) (f : String × α → β) (k : String) :
    Dict.get (d.map (fun kv => (kv.1, f kv))) k = (d.get k).map (fun v => f (k, v)) := by
  induction d with
  | nil => rfl
  | cons a d ih =>
    obtain ⟨n, v⟩ := a
    rw [List.map_cons, Dict.get_cons, Dict.get_cons, ih]
    by_cases h : n = k
    · subst h; simp
    · simp [h]

namespace Excitation

theorem sameKinds_hasKind {x y : Excitation V P} (h : SameKinds x y) (s : Statics) (n : String) : HasKind y s n ↔ HasKind x s n := by
  have := h.kinds n
  unfold HasKind
  cases hx : x.types.get n with
  | none => rw [hx] at this; cases hy : y.types.get n with
    | none => simp
    | some tv => rw [hy] at this; cases this
  | some tv => rw [hx] at this; cases hy : y.types.get n with
    | none => rw [hy] at this; cases this
    | some tv' => rw [hy] at this; simp at this; simp [this]

theorem sameKinds_physicals {x y : Excitation V P} (h : SameKinds x y) : y.physicals = x.physicals := by
  unfold physicals; rw [h.symmetry, h.mesh]

theorem sameKinds_elements {x y : Excitation V P} (h : SameKinds x y) : y.elements = x.elements := by
  unfold elements; rw [h.symmetry, h.mesh]

theorem excited_iff {x : Excitation V P} {s : Statics} {i : Nat} :
    Excited x s i ↔ ∃ n g, x.physicals.get n = some g ∧ i ∈ g ∧ HasKind x s n := by
  constructor
  · rintro ⟨n, g, tv, h1, h2, h3, h4⟩; exact ⟨n, g, h1, h2, tv, h3, h4⟩
  · rintro ⟨n, g, h1, h2, tv, h3, h4⟩; exact ⟨n, g, tv, h1, h2, h3, h4⟩

theorem sameKinds_excited {x y : Excitation V P} (h : SameKinds x y) (s : Statics) (i : Nat) : Excited y s i ↔ Excited x s i := by
  rw [excited_iff, excited_iff, sameKinds_physicals h]
  simp only [sameKinds_hasKind h]

theorem sameKinds_decides {x y : Excitation V P} (h : SameKinds x y) (s : Statics) (n : String) (i : Nat) : Decides y s n i ↔ Decides x s n i := by
  unfold Decides
  rw [sameKinds_physicals h]
  simp only [sameKinds_hasKind h]

theorem sameKinds_proper {x y : Excitation V P} (h : SameKinds x y) {s : Statics} (hp : Proper x s) : Proper y s := by
  intro n tv h1 h2
  obtain ⟨tv', h3, h4⟩ := (sameKinds_hasKind h s n).1 ⟨tv, h1, h2⟩
  rw [sameKinds_physicals h]
  exact hp n tv' h3 h4

theorem sorted_ext {a b : List Nat} (ha : a.Pairwise (· < ·)) (hb : b.Pairwise (· < ·)) (h : ∀ i, i ∈ a ↔ i ∈ b) : a = b := by
  have hna : a.Nodup := ha.imp (fun {x y} hxy => by omega)
  have hnb : b.Nodup := hb.imp (fun {x y} hxy => by omega)
  apply List.Perm.eq_of_pairwise (le := (· < ·)) (fun x y _ _ h1 h2 => by omega) ha hb
  exact (List.perm_ext_iff_of_nodup hna hnb).2 h

theorem sameKinds_active {x y : Excitation V P} (h : SameKinds x y) {s : Statics} {verts verts' : List (List P)} {names names' : Dict (List Nat)}
    {idx idx' : List Nat} (hx : ActiveSpec x s verts names idx) (hy : ActiveSpec y s verts' names' idx') :
    idx' = idx ∧ verts' = verts ∧ names' = names := by
  have hi : idx' = idx := by
    apply sorted_ext hy.sorted hx.sorted
    intro i
    rw [hy.mem, hx.mem, sameKinds_elements h, sameKinds_excited h]
  subst hi
  refine ⟨rfl, ?_, ?_⟩
  · apply List.ext_getElem?
    intro k
    by_cases hk : k < idx'.length
    · rw [hy.vertIdx k _ (List.getElem?_eq_getElem hk), hx.vertIdx k _ (List.getElem?_eq_getElem hk), sameKinds_elements h, h.mesh]
    · rw [List.getElem?_eq_none (by rw [hy.len]; omega), List.getElem?_eq_none (by rw [hx.len]; omega)]
  · have hfil : y.physicals.filter (fun ni => (y.types.get ni.1).any (fun tv => typeCheck s tv.1)) =
        x.physicals.filter (fun ni => (x.types.get ni.1).any (fun tv => typeCheck s tv.1)) := by
      rw [sameKinds_physicals h]
      apply List.filter_congr
      intro ni _
      rw [Bool.eq_iff_iff, any_typeCheck, any_typeCheck]
      exact sameKinds_hasKind h s ni.1
    have hpx := hx.pairs
    have hpy := hy.pairs
    have hlx := hx.pairsLen
    have hly := hy.pairsLen
    rw [hfil] at hpy hly
    apply List.ext_getElem?
    intro k
    cases hk : (x.physicals.filter (fun ni => (x.types.get ni.1).any (fun tv => typeCheck s tv.1)))[k]? with
    | none =>
      rw [List.getElem?_eq_none_iff] at hk
      rw [List.getElem?_eq_none (by omega), List.getElem?_eq_none (by omega)]
    | some ni =>
      obtain ⟨js, e1, e2⟩ := hpx k ni hk
      obtain ⟨js', e3, e4⟩ := hpy k ni hk
      rw [e1, e3]
      have hnd : idx'.Nodup := hx.sorted.imp (fun {a b} hab => by omega)
      have : js' = js := by
        have hl : js'.length = js.length := by
          have a := congrArg List.length e2; have b := congrArg List.length e4
          simp at a b; omega
        apply List.ext_getElem hl
        intro j h1 h2
        have a := congrArg (fun l => l[j]?) (e4.trans e2.symm)
        simp only [List.getElem?_map, List.getElem?_eq_getElem h1, List.getElem?_eq_getElem h2, Option.map_some, Option.some.injEq] at a
        have b : idx'[js[j]]? ∈ ni.2.map some := by
          rw [← e2]; exact List.mem_map_of_mem (List.getElem_mem h2)
        obtain ⟨v, _, hv⟩ := List.mem_map.1 b
        have hlt := (List.getElem?_eq_some_iff.1 hv.symm).1
        have hlt' : js'[j] < idx'.length := (List.getElem?_eq_some_iff.1 (a.trans hv.symm)).1
        exact (List.getElem?_inj hlt' hnd).1 a
      rw [this]

theorem Charges.linear_list [Field V] {n : Nat} (A : Matrix (Fin n) (Fin n) V) (l : List String) (v : String → V) (f : String → Fin n → V) :
    A.mulVec (fun i => (l.map (fun m => v m * f m i)).sum) = fun k => (l.map (fun m => v m * A.mulVec (f m) k)).sum := by
  induction l with
  | nil =>
    simp only [List.map_nil, List.sum_nil]
    exact Matrix.mulVec_zero A
  | cons a l ih =>
    have : (fun i => ((a :: l).map (fun m => v m * f m i)).sum) = v a • f a + (fun i => (l.map (fun m => v m * f m i)).sum) := by
      funext i; simp
    rw [this, Matrix.mulVec_add, Matrix.mulVec_smul, ih]
    funext k
    simp

theorem sum_indicator [Field V] (l : List String) (hl : l.Nodup) (v : String → V) (m : String) :
    (l.map (fun n => v n * if n = m then 1 else 0)).sum = if m ∈ l then v m else 0 := by
  induction l with
  | nil => simp
  | cons a l ih =>
    have hn := List.nodup_cons.1 hl
    rw [List.map_cons, List.sum_cons, ih hn.2]
    by_cases h : a = m
    · subst h; simp [hn.1]
    · have h' : ¬ m = a := fun e => h e.symm
      simp [h, h']

section unit
variable [Field V] [DecidableEq V]

theorem unitTypes_get (x : Excitation V P) (name m : String) :
    (x.unitTypes name).get m = (x.types.get m).map (fun tv =>
      if m = name then (tv.1, .num 1) else if tv.1 = .voltageFixed then (tv.1, .num 0) else if tv.1 = .current then (tv.1, .num 0) else tv) := by
  unfold unitTypes
  have : (fun nv : String × (ExcType × ExcVal V P) =>
      if nv.1 = name then (nv.1, (nv.2.1, ExcVal.num 1))
      else if nv.2.1 = .voltageFixed then (nv.1, (nv.2.1, ExcVal.num 0))
      else if nv.2.1 = .current then (nv.1, (nv.2.1, ExcVal.num 0))
      else nv) = fun nv => (nv.1, if nv.1 = name then (nv.2.1, ExcVal.num 1) else if nv.2.1 = .voltageFixed then (nv.2.1, ExcVal.num 0)
        else if nv.2.1 = .current then (nv.2.1, ExcVal.num 0) else nv.2) := by
    funext nv
    split
    · rfl
    · split
      · rfl
      · split <;> rfl
  rw [this, Dict.get_mapKey]

theorem unitTypes_keys (x : Excitation V P) (name : String) : Dict.keys (x.unitTypes name) = x.types.keys := by
  unfold unitTypes Dict.keys
  rw [List.map_map]
  apply List.map_congr_left
  intro nv _
  simp only [Function.comp]
  split
  · rfl
  · split
    · rfl
    · split <;> rfl

theorem unit_sameKinds (x : Excitation V P) (name : String) : SameKinds x { x with types := x.unitTypes name } := by
  refine ⟨rfl, rfl, fun n => ?_⟩
  show ((x.unitTypes name).get n).map (·.1) = _
  rw [unitTypes_get]
  cases x.types.get n with
  | none => rfl
  | some tv =>
    simp only [Option.map_some, Option.some.injEq]
    split
    · rfl
    · split
      · rfl
      · split <;> rfl

theorem unit_only {x : Excitation V P} (h : OnlyVoltages x) (name : String) : OnlyVoltages { x with types := x.unitTypes name } := by
  intro n tv htv
  have htv : (x.unitTypes name).get n = some tv := htv
  rw [unitTypes_get] at htv
  obtain ⟨tv', h1, rfl⟩ := Option.map_eq_some_iff.1 htv
  obtain ⟨h2, h3⟩ := h n tv' h1
  split
  · exact ⟨h2, _, rfl⟩
  · split
    · exact ⟨h2, _, rfl⟩
    · split
      · exact ⟨h2, _, rfl⟩
      · exact ⟨h2, h3⟩

theorem only_numeric {x : Excitation V P} (h : OnlyVoltages x) (s : Statics) : Numeric x s := by
  intro n tv h1 _
  obtain ⟨h2, h3⟩ := h n tv h1
  refine ⟨fun e => ?_, fun _ => h3⟩
  rcases h2 with h2 | h2 <;> rw [h2] at e <;> cases e

theorem mem_nonZeroFixed {x : Excitation V P} (hn : x.types.keys.Nodup) (h : OnlyVoltages x) {n : String} :
    n ∈ x.nonZeroFixed ↔ ∃ v, v ≠ 0 ∧ x.types.get n = some (.voltageFixed, .num v) := by
  unfold nonZeroFixed
  rw [List.mem_map]
  constructor
  · rintro ⟨⟨k, t, v⟩, h1, rfl⟩
    obtain ⟨h1, h2⟩ := List.mem_filter.1 h1
    have hg := Dict.get_of_mem hn h1
    obtain ⟨h3, v', h4⟩ := h k _ hg
    simp only at h3 h4 hg
    subst h4
    rcases h3 with rfl | rfl
    · simp [nonZero] at h2; exact ⟨v', h2, hg⟩
    · simp at h2
  · rintro ⟨v, hv, hg⟩
    exact ⟨(n, .voltageFixed, .num v), List.mem_filter.2 ⟨Dict.mem_of_get hg, by simp [nonZero, hv]⟩, rfl⟩

theorem nonZeroFixed_nodup {x : Excitation V P} (hn : x.types.keys.Nodup) : x.nonZeroFixed.Nodup :=
  (List.filter_sublist.map _).nodup hn

variable [Inhabited P]

/-- Right hand sides of excitations of the same kinds, row by row. -/
theorem rhs_decomposition {x y : Excitation V P} (hv : Valid x.mesh) (hn : x.types.keys.Nodup) (hp : Proper x .electrostatic)
    (hx : OnlyVoltages x) (hk : SameKinds x y) (hny : y.types.keys.Nodup) (hy : OnlyVoltages y)
    (hzero : ∀ n, x.types.get n = some (.voltageFixed, .num 0) → y.types.get n = some (.voltageFixed, .num 0)) (centre : List P → P) :
    ∃ (F : List V) (U : String → List V), y.electricRhs centre = some F ∧
      (∀ n, n ∈ x.nonZeroFixed → Excitation.electricRhs { x with types := x.unitTypes n } centre = some (U n) ∧ (U n).length = F.length) ∧
      ∀ k, k < F.length → F.getD k 0 = (x.nonZeroFixed.map (fun n => voltageOf y n * (U n).getD k 0)).sum := by
  have hvy : Valid y.mesh := by rw [hk.mesh]; exact hv
  obtain ⟨F, idx, h1, h2, h3, h4, h5⟩ := C34_electrostatic hvy hny (sameKinds_proper hk hp) (only_numeric hy _) centre
  have hunit : ∀ n, ∃ U : List V, Excitation.electricRhs { x with types := x.unitTypes n } centre = some U ∧ U.length = F.length ∧
      ∀ (k i : Nat) e m tv, idx[k]? = some i → x.elements[i]? = some e → Decides x .electrostatic m i → (x.unitTypes n).get m = some tv →
        U[k]? = expectedElectric (centre (coords x.mesh.points e)) tv := by
    intro n
    have hs := unit_sameKinds x n
    obtain ⟨U, idx', u1, u2, u3, u4, u5⟩ := C34_electrostatic (x := { x with types := x.unitTypes n }) hv
      (by show (Dict.keys (x.unitTypes n)).Nodup; rw [unitTypes_keys]; exact hn)
      (sameKinds_proper hs hp) (only_numeric (unit_only hx n) _) centre
    have : idx' = idx := by
      apply sorted_ext u2 h2
      intro i
      rw [u3, h3, sameKinds_elements hs, sameKinds_elements hk, sameKinds_excited hs, sameKinds_excited hk]
    subst this
    refine ⟨U, u1, by omega, fun k i e m tv e1 e2 e3 e4 => ?_⟩
    exact (u5 k i e m tv e1 (by rw [sameKinds_elements hs]; exact e2) ((sameKinds_decides hs _ _ _).2 e3) e4).1
  refine ⟨F, fun n => (hunit n).choose, h1, fun n _ => ⟨(hunit n).choose_spec.1, (hunit n).choose_spec.2.1⟩, fun k hkF => ?_⟩
  have hki : k < idx.length := by omega
  have hidx : idx[k]? = some idx[k] := List.getElem?_eq_getElem hki
  obtain ⟨hil, hex⟩ := (h3 _).1 (List.getElem_mem hki)
  have he : y.elements[idx[k]]? = some y.elements[idx[k]] := List.getElem?_eq_getElem hil
  obtain ⟨m, hm⟩ := exists_decides hex
  obtain ⟨tv, htv⟩ : ∃ tv, y.types.get m = some tv := by
    obtain ⟨_, _, _, _, _, ⟨tv, h, _⟩, _⟩ := hm; exact ⟨tv, h⟩
  have hF := (h5 k _ _ m tv hidx he hm htv).1
  have hmx := (sameKinds_decides hk _ _ _).1 hm
  have hex' : x.elements[idx[k]]? = some y.elements[idx[k]] := by rw [← sameKinds_elements hk]; exact he
  obtain ⟨tvx, htvx, hkind⟩ : ∃ tvx, x.types.get m = some tvx ∧ tvx.1 = tv.1 := by
    have := hk.kinds m
    rw [htv] at this
    cases hg : x.types.get m with
    | none => rw [hg] at this; cases this
    | some tvx => rw [hg] at this; simp at this; exact ⟨tvx, rfl, this.symm⟩
  have hU : ∀ n, (hunit n).choose[k]? = expectedElectric (centre (coords x.mesh.points y.elements[idx[k]]))
      (if m = n then (tv.1, .num 1) else if tv.1 = .voltageFixed then (tv.1, .num 0) else if tv.1 = .current then (tv.1, .num 0) else tvx) := by
    intro n
    apply (hunit n).choose_spec.2.2 k _ _ m _ hidx hex' hmx
    rw [unitTypes_get, htvx, Option.map_some, hkind]
  obtain ⟨hty, v, hval⟩ := hy m tv htv
  obtain ⟨t, vv⟩ := tv
  simp only at hty hval
  subst hval
  obtain ⟨tx, vx⟩ := tvx
  simp only at hkind
  subst hkind
  obtain ⟨_, v0, hv0⟩ := hx m _ htvx
  simp only at hv0
  subst hv0
  rcases hty with rfl | rfl
  · have hUd : ∀ n, (hunit n).choose.getD k 0 = if n = m then 1 else 0 := by
      intro n
      rw [List.getD_eq_getElem?_getD, hU n]
      by_cases hnm : n = m
      · subst hnm; simp [expectedElectric]
      · have : ¬ m = n := fun e => hnm e.symm
        simp [hnm, this, expectedElectric]
    have hm' : voltageOf y m = v := by unfold voltageOf; rw [htv]
    simp only [hUd]
    rw [sum_indicator _ (nonZeroFixed_nodup hn), List.getD_eq_getElem?_getD, hF]
    simp only [expectedElectric, Option.getD_some, hm']
    split
    · rfl
    · rename_i hnot
      rw [mem_nonZeroFixed hn hx] at hnot
      by_cases h0 : v0 = 0
      · subst h0
        have := hzero m htvx
        rw [htv] at this
        simpa using this
      · exact absurd ⟨v0, h0, htvx⟩ hnot
  · have hz : ∀ n ∈ x.nonZeroFixed, voltageOf y n * (hunit n).choose.getD k 0 = 0 := by
      intro n hnz
      rw [List.getD_eq_getElem?_getD, hU n]
      have : ¬ m = n := by
        rintro rfl
        obtain ⟨w, _, hw⟩ := (mem_nonZeroFixed hn hx).1 hnz
        rw [htvx] at hw; cases hw
      simp [this, expectedElectric]
    rw [List.getD_eq_getElem?_getD, hF, List.map_congr_left hz]
    simp [expectedElectric]

/-- The systems of two excitations that differ in voltages only. -/
theorem sameKinds_system {x y : Excitation V P} {ph : Physics V P} (hmat : MatrixIgnoresVoltages ph) (hv : Valid x.mesh) (hn : x.types.keys.Nodup)
    (hp : Proper x .electrostatic) (hx : OnlyVoltages x) (hk : SameKinds x y) (hny : y.types.keys.Nodup) (hy : OnlyVoltages y)
    (hdiel : ∀ n v, x.types.get n = some (.dielectric, v) → y.types.get n = some (.dielectric, v)) :
    ∃ (n : Nat) (A : Matrix (Fin n) (Fin n) V), x.system ph .electrostatic = some ⟨n, A⟩ ∧ y.system ph .electrostatic = some ⟨n, A⟩ ∧
      ∀ F, y.electricRhs ph.centre = some F → F.length = n := by
  have hvy : Valid y.mesh := by rw [hk.mesh]; exact hv
  obtain ⟨verts, names, idx, ha⟩ := active_spec hv hn hp
  obtain ⟨verts', names', idx', hb⟩ := active_spec hvy hny (sameKinds_proper hk hp)
  obtain ⟨rfl, rfl, rfl⟩ := sameKinds_active hk ha hb
  obtain ⟨ts, vs, a1, a2, a3, a4⟩ := solver_arrays hv (only_numeric hx _) ha (fun k => ph.centre (verts'.getD k []))
  obtain ⟨ts', vs', b1, b2, b3, b4⟩ := solver_arrays hvy (only_numeric hy _) hb (fun k => ph.centre (verts'.getD k []))
  have hrow : ∀ k : Nat, k < idx'.length → ts[k]? = ts'[k]? ∧ (ts[k]? = some (some .dielectric) → vs[k]? = vs'[k]?) := by
    intro k hki
    have hidx : idx'[k]? = some idx'[k] := List.getElem?_eq_getElem hki
    obtain ⟨m, hm⟩ := exists_decides ((ha.mem _).1 (List.getElem_mem hki)).2
    obtain ⟨tv, htv⟩ : ∃ tv, x.types.get m = some tv := by
      obtain ⟨_, _, _, _, _, ⟨tv, h, _⟩, _⟩ := hm; exact ⟨tv, h⟩
    obtain ⟨tv', htv', hkind⟩ : ∃ tv', y.types.get m = some tv' ∧ tv'.1 = tv.1 := by
      have := hk.kinds m
      rw [htv] at this
      cases hg : y.types.get m with
      | none => rw [hg] at this; cases this
      | some tvx => rw [hg] at this; simp at this; exact ⟨tvx, rfl, this⟩
    obtain ⟨c1, c2⟩ := a4 k _ m tv hidx hm htv
    obtain ⟨d1, d2⟩ := b4 k _ m tv' hidx ((sameKinds_decides hk _ _ _).2 hm) htv'
    refine ⟨by rw [c1, d1, hkind], fun hd => ?_⟩
    rw [c1] at hd
    simp only [Option.some.injEq] at hd
    obtain ⟨t, v⟩ := tv
    simp only at hd
    subst hd
    rw [hdiel m v htv] at htv'
    cases htv'
    rw [c2, d2]
  have hts : ts' = ts := by
    apply List.ext_getElem?
    intro k
    by_cases hki : k < idx'.length
    · exact (hrow k hki).1.symm
    · rw [List.getElem?_eq_none (by omega), List.getElem?_eq_none (by omega)]
  subst hts
  refine ⟨verts'.length, ph.matrix verts' ts' vs, ?_, ?_, ?_⟩
  · unfold system
    rw [ha.eq]
    simp only [Option.bind_eq_bind, Option.bind_some]
    rw [a1]; rfl
  · unfold system
    rw [hb.eq]
    simp only [Option.bind_eq_bind, Option.bind_some]
    rw [b1, Option.bind_some]
    have := hmat verts' ts' vs vs' (fun k hd => by
      by_cases hki : k < idx'.length
      · exact (hrow k hki).2 hd
      · rw [List.getElem?_eq_none (by omega), List.getElem?_eq_none (by omega)])
    rw [this]; rfl
  · intro F hF
    unfold electricRhs at hF
    rw [hb.eq] at hF
    simp only [Option.bind_eq_bind, Option.bind_some] at hF
    rw [b1] at hF
    cases hF
    simp [b2, b3, hb.len]

theorem solveMatrix_eq {n : Nat} (A : Matrix (Fin n) (Fin n) V) (hA : A.det ≠ 0) (rhs : List (List V)) (hr : rhs ≠ [])
    (hl : ∀ F ∈ rhs, F.length = n) :
    solveMatrix A rhs = some (rhs.map (fun F => List.ofFn (A⁻¹.mulVec (fun i => F.getD i 0)))) := by
  unfold solveMatrix
  by_cases hn : n = 0
  · subst hn
    simp
  · rw [if_neg hn, if_neg hr, if_pos (by rw [List.all_eq_true]; intro F hF; simpa using hl F hF)]
    rw [mapM_eq_some_iff, List.map_map]
    apply List.map_congr_left
    intro F _
    simp only [linSolve, if_neg hA, Function.comp]

theorem only_notMag {x : Excitation V P} (hn : x.types.keys.Nodup) (h : OnlyVoltages x) : x.isMagnetostatic = false := by
  unfold isMagnetostatic
  rw [List.any_eq_false]
  intro nv hnv
  rcases (h nv.1 nv.2 (Dict.get_of_mem hn hnv)).1 with h1 | h1 <;> simp [h1]

theorem only_noMagSystem {x : Excitation V P} (ph : Physics V P) (hv : Valid x.mesh) (hn : x.types.keys.Nodup) (h : OnlyVoltages x) :
    x.solveRhs ph .magnetostatic [] = some [] := by
  have hnk : ∀ n, ¬ HasKind x .magnetostatic n := by
    rintro n ⟨tv, h1, h2⟩
    rcases (h n tv h1).1 with h3 | h3 <;> rw [h3] at h2 <;> simp [typeCheck] at h2
  obtain ⟨verts, names, idx, ha⟩ := active_spec (s := .magnetostatic) hv hn (fun n tv h1 h2 => absurd ⟨tv, h1, h2⟩ (hnk n))
  have hidx : idx = [] := by
    apply List.eq_nil_iff_forall_not_mem.2
    intro i hi
    obtain ⟨n, g, _, _, h3⟩ := excited_iff.1 ((ha.mem i).1 hi).2
    exact hnk n h3
  subst hidx
  have hverts : verts = [] := List.length_eq_zero_iff.1 ha.len
  subst hverts
  obtain ⟨ts, vs, a1, _⟩ := solver_arrays hv (only_numeric h _) ha (fun k => ph.centre (([] : List (List P)).getD k []))
  unfold solveRhs system
  rw [ha.eq]
  simp only [Option.bind_eq_bind, Option.bind_some]
  rw [a1, Option.bind_some, Option.pure_def, Option.bind_some]
  unfold solveMatrix
  simp

end unit
end Excitation

/-- **C35, partial.** Let the excitation `x` of a valid mesh consist of fixed voltages and dielectrics only, at least one voltage not being zero, and let the
matrix be regular. Then `solve_direct_superposition x` gives one field for every name with a voltage other than zero, and for every setting `y` of
these voltages (zero voltages staying zero), in particular for `x` itself, the charges of `solve_direct y` are the sum of the charges of the unit fields weighted by the voltages of `y`.
Missing: magnetostatic potentials, currents, magnetizable materials and excitations with zero voltages only, for which the statement is false, see `C35_refuted`. -/
theorem C35_partial [Field V] [DecidableEq V] [Inhabited P] {x y : Excitation V P} {ph : Physics V P} (hmat : MatrixIgnoresVoltages ph)
    (hv : Valid x.mesh) (hn : x.types.keys.Nodup) (hp : Proper x .electrostatic) (hx : OnlyVoltages x)
    (hnz : ∃ n v, v ≠ 0 ∧ x.types.get n = some (.voltageFixed, .num v))
    (hdet : ∀ A, x.system ph .electrostatic = some A → A.2.det ≠ 0)
    (hk : SameKinds x y) (hny : y.types.keys.Nodup) (hy : OnlyVoltages y)
    (hdiel : ∀ n v, x.types.get n = some (.dielectric, v) → y.types.get n = some (.dielectric, v))
    (hzero : ∀ n, x.types.get n = some (.voltageFixed, .num 0) → y.types.get n = some (.voltageFixed, .num 0)) :
    ∃ (fields : Dict (Charges V)) (unit : String → List V) (c : List V),
      x.solveSuperposition ph = some fields ∧ y.solveDirect ph = some { elec := some c } ∧
      fields.keys.Nodup ∧ (∀ n, n ∈ fields.keys ↔ ∃ v, v ≠ 0 ∧ x.types.get n = some (.voltageFixed, .num v)) ∧
      (∀ n ∈ fields.keys, fields.get n = some { elec := some (unit n) } ∧ (unit n).length = c.length) ∧
      ∀ k, k < c.length → c.getD k 0 = (fields.keys.map (fun n => voltageOf y n * (unit n).getD k 0)).sum := by
  obtain ⟨N, A, hsx, hsy, hlen⟩ := Excitation.sameKinds_system hmat hv hn hp hx hk hny hy hdiel
  have hA : A.det ≠ 0 := hdet _ hsx
  obtain ⟨F, U, hF, hU, hsum⟩ := Excitation.rhs_decomposition hv hn hp hx hk hny hy hzero ph.centre
  have hFl := hlen F hF
  have hkeysnd := Excitation.nonZeroFixed_nodup hn
  have hne : x.nonZeroFixed ≠ [] := by
    obtain ⟨n, v, h1, h2⟩ := hnz
    intro e
    have := (Excitation.mem_nonZeroFixed hn hx).2 ⟨v, h1, h2⟩
    rw [e] at this; cases this
  let S : List V → List V := fun F => List.ofFn (A⁻¹.mulVec (fun i => F.getD i 0))
  let fields : Dict (Charges V) := x.nonZeroFixed.map (fun n => (n, { elec := some (S (U n)) }))
  have hfk : fields.keys = x.nonZeroFixed := by
    simp [fields, Dict.keys, Function.comp_def]
  refine ⟨fields, fun n => S (U n), S F, ?_, ?_, ?_, ?_, ?_, ?_⟩
  · unfold Excitation.solveSuperposition
    have hsplit : x.splitForSuperposition = some (x.nonZeroFixed.map (fun n => (n, { x with types := x.unitTypes n }))) := by
      unfold Excitation.splitForSuperposition
      rw [if_neg]
      rintro ⟨_, h⟩
      rw [List.any_eq_true] at h
      obtain ⟨nv, h1, h2⟩ := h
      rcases (hx nv.1 nv.2 (Dict.get_of_mem hn h1)).1 with h3 | h3 <;> simp [h3] at h2
    rw [hsplit]
    simp only [Option.bind_eq_bind, Option.bind_some]
    have hel : (x.nonZeroFixed.map (fun n => (n, ({ x with types := x.unitTypes n } : Excitation V P)))).filter (fun p => p.2.isElectrostatic) =
        x.nonZeroFixed.map (fun n => (n, { x with types := x.unitTypes n })) := by
      rw [List.filter_eq_self]
      intro p hp
      obtain ⟨n, h1, rfl⟩ := List.mem_map.1 hp
      obtain ⟨v, _, h2⟩ := (Excitation.mem_nonZeroFixed hn hx).1 h1
      unfold Excitation.isElectrostatic
      rw [List.any_eq_true]
      refine ⟨(n, (.voltageFixed, .num 1)), Dict.mem_of_get ?_, by simp⟩
      show (x.unitTypes n).get n = _
      rw [Excitation.unitTypes_get, h2]; simp
    have hmag : (x.nonZeroFixed.map (fun n => (n, ({ x with types := x.unitTypes n } : Excitation V P)))).filter (fun p => p.2.isMagnetostatic) = [] := by
      rw [List.filter_eq_nil_iff]
      intro p hp
      obtain ⟨n, h1, rfl⟩ := List.mem_map.1 hp
      rw [Excitation.only_notMag (x := { x with types := x.unitTypes n })
        (by show (Dict.keys (x.unitTypes n)).Nodup; rw [Excitation.unitTypes_keys]; exact hn) (Excitation.unit_only hx n)]
      simp
    rw [hel, hmag]
    have hFs : (x.nonZeroFixed.map (fun n => (n, ({ x with types := x.unitTypes n } : Excitation V P)))).mapM (fun p => p.2.rhs ph .electrostatic) =
        some (x.nonZeroFixed.map U) := by
      rw [mapM_eq_some_iff, List.map_map, List.map_map]
      apply List.map_congr_left
      intro n h1
      exact (hU n h1).1
    have hsolve : x.solveRhs ph .electrostatic (x.nonZeroFixed.map U) = some ((x.nonZeroFixed.map U).map S) := by
      unfold Excitation.solveRhs
      rw [hsx]
      simp only [Option.bind_eq_bind, Option.bind_some]
      apply Excitation.solveMatrix_eq A hA _ (by simpa using hne)
      intro G hG
      obtain ⟨n, h1, rfl⟩ := List.mem_map.1 hG
      rw [(hU n h1).2, hFl]
    have hms : List.mapM (fun p : String × Excitation V P => p.2.rhs ph .magnetostatic) [] = some [] := rfl
    rw [hFs, Option.bind_some, hsolve, Option.bind_some, hms, Option.bind_some, Excitation.only_noMagSystem ph hv hn hx, Option.bind_some]
    simp only [List.map_nil, List.zip_nil_left, List.foldl_nil, Option.pure_def, Option.some.injEq]
    simp only [List.map_map, Function.comp_def, fields]
    rw [List.map_id', ← List.zip_map']
    simp
  · unfold Excitation.solveDirect
    have hel : y.isElectrostatic = true := by
      obtain ⟨n, v, _, h⟩ := hnz
      have := hk.kinds n
      rw [h] at this
      obtain ⟨tv, h1, h2⟩ := Option.map_eq_some_iff.1 this
      unfold Excitation.isElectrostatic
      rw [List.any_eq_true]
      refine ⟨(n, tv), Dict.mem_of_get h1, ?_⟩
      simp only at h2
      simp [h2]
    rw [if_pos hel, Excitation.only_notMag hny hy]
    have hr : y.rhs ph .electrostatic = some F := hF
    rw [hr]
    simp only [Option.bind_eq_bind, Option.bind_some]
    have hsolve : y.solveRhs ph .electrostatic [F] = some [S F] := by
      unfold Excitation.solveRhs
      rw [hsy]
      simp only [Option.bind_eq_bind, Option.bind_some]
      apply Excitation.solveMatrix_eq A hA _ (by simp)
      intro G hG
      rw [List.mem_singleton.1 hG, hFl]
    rw [hsolve]; rfl
  · rw [hfk]; exact hkeysnd
  · intro n; rw [hfk]; exact Excitation.mem_nonZeroFixed hn hx
  · intro n hnk
    refine ⟨?_, by simp [S]⟩
    rw [hfk] at hnk
    apply Dict.get_of_mem (by rw [hfk]; exact hkeysnd)
    exact List.mem_map.2 ⟨n, hnk, rfl⟩
  · intro k hkl
    have hkN : k < N := by simpa [S] using hkl
    have hFsum : (fun i : Fin N => F.getD i 0) = fun i : Fin N => (x.nonZeroFixed.map (fun n => voltageOf y n * (U n).getD i 0)).sum := by
      funext i
      exact hsum i (by omega)
    have hS : ∀ G : List V, (S G).getD k 0 = A⁻¹.mulVec (fun i => G.getD i 0) ⟨k, hkN⟩ := by
      intro G
      simp [S, List.getD_eq_getElem?_getD, hkN]
    rw [hfk, hS, hFsum, Excitation.Charges.linear_list A⁻¹ x.nonZeroFixed (voltageOf y) (fun n i => (U n).getD i 0)]
    simp only [hS]

/-! ## Examples and refutation -/

/-- Two electrodes and a coil in the (x, z)-plane. -/
def exLens : Mesh IPoint where
  points := [⟨1, 0, 0⟩, ⟨2, 0, 0⟩, ⟨1, 0, 5⟩, ⟨2, 0, 5⟩, ⟨9, 0, 0⟩, ⟨9, 0, 1⟩, ⟨10, 0, 0⟩]
  lines := [[0, 1], [2, 3], [4, 5]]
  triangles := [[4, 5, 6]]
  physLines := [("a", [0]), ("spacer", [2]), ("b", [1])]
  physTris := [("coil", [0])]

/-- An excitation of these electrodes. -/
def exExc (types : Dict (ExcType × ExcVal ℚ IPoint)) : Excitation ℚ IPoint :=
  { mesh := exLens, electrodes := exLens.electrodes, symmetry := .radial, types := types }

/-- The simplest physics: the identity matrix. -/
def exPhys : Physics ℚ IPoint where
  centre := fun vs => vs.headD ⟨0, 0, 0⟩
  flux := fun cur _ v => v * (cur.map (·.2)).sum
  matrix := fun _ _ _ => 1

theorem exLens_valid : Valid exLens := by
  refine ⟨Or.inl rfl, ?_, ?_, ?_, ?_, ?_, ?_⟩ <;> decide

instance : Inhabited IPoint := ⟨⟨0, 0, 0⟩⟩

/-- All hypotheses of `C32_history`, `C33_active`, `C34_electrostatic`, `C35_partial` hold for two electrodes at 5 and -3 with a dielectric between them. -/
example : Valid exLens ∧ (Excitation.new exLens .radial (fun p : IPoint => p.y = 0)).map (fun x => (x.calls intGeo
      [.voltage [("a", .num 5), ("b", .num (-3))], .dielectric [("spacer", .num 2)], .voltage [("nothing", .num 1)]]).types.keys) =
        some ["a", "b", "spacer"] ∧
    (∃ x : Excitation ℚ IPoint, x = exExc [("a", .voltageFixed, .num 5), ("b", .voltageFixed, .num (-3)), ("spacer", .dielectric, .num 2)] ∧
      x.types.keys.Nodup ∧ Proper x .electrostatic ∧ OnlyVoltages x ∧ x.types.get "a" = some (.voltageFixed, .num 5) ∧
      (∀ A, x.system exPhys .electrostatic = some A → A.2.det ≠ 0) ∧
      x.electricRhs exPhys.centre = some [5, -3, 0]) := by
  have hget : ∀ n tv, (exExc [("a", .voltageFixed, .num 5), ("b", .voltageFixed, .num (-3)), ("spacer", .dielectric, .num 2)]).types.get n = some tv →
      (n, tv) ∈ [("a", ExcType.voltageFixed, (ExcVal.num 5 : ExcVal ℚ IPoint)), ("b", .voltageFixed, .num (-3)), ("spacer", .dielectric, .num 2)] :=
    fun n tv h => Dict.mem_of_get h
  refine ⟨exLens_valid, by rfl, _, rfl, by decide, fun n tv h _ => ?_, fun n tv h => ?_, rfl, ?_, rfl⟩
  · have := hget n tv h
    simp only [List.mem_cons, Prod.mk.injEq, List.not_mem_nil, or_false] at this
    rcases this with ⟨rfl, _⟩ | ⟨rfl, _⟩ | ⟨rfl, _⟩
    · exact ⟨[0], rfl⟩
    · exact ⟨[1], rfl⟩
    · exact ⟨[2], rfl⟩
  · have := hget n tv h
    simp only [List.mem_cons, Prod.mk.injEq, List.not_mem_nil, or_false] at this
    rcases this with ⟨_, rfl⟩ | ⟨_, rfl⟩ | ⟨_, rfl⟩
    · exact ⟨.inl rfl, _, rfl⟩
    · exact ⟨.inl rfl, _, rfl⟩
    · exact ⟨.inr rfl, _, rfl⟩
  · intro A hA
    have : (exExc [("a", .voltageFixed, .num 5), ("b", .voltageFixed, .num (-3)), ("spacer", .dielectric, .num 2)]).system exPhys .electrostatic =
      some ⟨3, 1⟩ := rfl
    rw [this] at hA
    cases hA
    simp

theorem solveMatrix_one {n : Nat} (hn : n ≠ 0) (rhs : List (List ℚ)) (hr : rhs ≠ []) (hl : ∀ F ∈ rhs, F.length = n) :
    solveMatrix (1 : Matrix (Fin n) (Fin n) ℚ) rhs = some rhs := by
  rw [Excitation.solveMatrix_eq 1 (by simp) rhs hr hl]
  congr 1
  have : ∀ F ∈ rhs, List.ofFn ((1 : Matrix (Fin n) (Fin n) ℚ)⁻¹.mulVec (fun i => F.getD i 0)) = F := by
    intro F hF
    rw [inv_one, Matrix.one_mulVec]
    apply List.ext_getElem (by simp [hl F hF])
    intro k h1 h2
    simp [h2]
  rw [List.map_congr_left this, List.map_id']

/-- **C35 is false in general.** (1) If all voltages are zero `solve_direct_superposition` raises although `solve_direct` does not.
(2) With voltages and currents, the fields of the voltages are replaced by magnetic fields: no field of the superposition has an electrostatic part, while the solution has.
(3) With a magnetostatic potential, its full value is part of every field, so that the field of the coil, weighted by its current, is not the solution. -/
theorem C35_refuted :
    (∃ x : Excitation ℚ IPoint, Valid x.mesh ∧ OnlyVoltages x ∧ x.solveDirect exPhys = some { elec := some [0] } ∧ x.solveSuperposition exPhys = none) ∧
    (∃ (x : Excitation ℚ IPoint) (fields : Dict (Charges ℚ)), Valid x.mesh ∧ x.solveDirect exPhys = some { elec := some [2], mag := some ([], [("coil", 3)]) } ∧
      x.solveSuperposition exPhys = some fields ∧ fields.keys = ["a", "coil"] ∧ ∀ f ∈ fields, f.2.elec = none) ∧
    (∃ (x : Excitation ℚ IPoint) (a : ℚ), Valid x.mesh ∧ x.solveDirect exPhys = some { mag := some ([a], [("coil", 3)]) } ∧
      x.solveSuperposition exPhys = some [("coil", { mag := some ([a], [("coil", 3)]) })] ∧ 3 * a ≠ a) := by
  refine ⟨⟨exExc [("a", .voltageFixed, .num 0)], exLens_valid, ?_, ?_, ?_⟩,
    ⟨exExc [("a", .voltageFixed, .num 2), ("coil", .current, .num 3)],
      [("a", { mag := some ([], [("coil", 3)]) }), ("coil", { mag := some ([], [("coil", 3)]) })], exLens_valid, ?_, ?_, rfl, ?_⟩,
    ⟨exExc [("a", .magnetostaticPot, .num 5), ("coil", .current, .num 3)], 5, exLens_valid, ?_, ?_, by norm_num⟩⟩
  · intro n tv h
    have : (n, tv) ∈ [("a", ExcType.voltageFixed, (ExcVal.num 0 : ExcVal ℚ IPoint))] := Dict.mem_of_get h
    simp only [List.mem_cons, Prod.mk.injEq, List.not_mem_nil, or_false] at this
    obtain ⟨_, rfl⟩ := this
    exact ⟨.inl rfl, _, rfl⟩
  · have h1 : (exExc [("a", .voltageFixed, .num 0)]).rhs exPhys .electrostatic = some [0] := rfl
    have h2 : (exExc [("a", .voltageFixed, .num 0)]).solveRhs exPhys .electrostatic [[0]] = solveMatrix (1 : Matrix (Fin 1) (Fin 1) ℚ) [[0]] := rfl
    rw [solveMatrix_one (by simp) _ (by simp) (by simp)] at h2
    unfold Excitation.solveDirect
    rw [if_pos (by rfl), h1]
    simp only [Option.bind_eq_bind, Option.bind_some, h2]
    rfl
  · have h1 : (exExc [("a", .voltageFixed, .num 0)]).splitForSuperposition = some [] := by
      unfold Excitation.splitForSuperposition
      rw [if_neg]
      · rfl
      · rintro ⟨h, _⟩; exact h rfl
    have h2 : (exExc [("a", .voltageFixed, .num 0)]).solveRhs exPhys .electrostatic [] = solveMatrix (1 : Matrix (Fin 1) (Fin 1) ℚ) [] := rfl
    have h3 : solveMatrix (1 : Matrix (Fin 1) (Fin 1) ℚ) [] = none := by simp [solveMatrix]
    unfold Excitation.solveSuperposition
    rw [h1]
    simp only [Option.bind_eq_bind, Option.bind_some, List.filter_nil, List.mapM_nil, Option.pure_def, h2, h3, Option.bind_none]
  · have h1 : (exExc [("a", .voltageFixed, .num 2), ("coil", .current, .num 3)]).rhs exPhys .electrostatic = some [2] := rfl
    have h2 : (exExc [("a", .voltageFixed, .num 2), ("coil", .current, .num 3)]).solveRhs exPhys .electrostatic [[2]] =
      solveMatrix (1 : Matrix (Fin 1) (Fin 1) ℚ) [[2]] := rfl
    rw [solveMatrix_one (by simp) _ (by simp) (by simp)] at h2
    have h3 : (exExc [("a", .voltageFixed, .num 2), ("coil", .current, .num 3)]).rhs exPhys .magnetostatic = some [] := rfl
    have h4 : (exExc [("a", .voltageFixed, .num 2), ("coil", .current, .num 3)]).solveRhs exPhys .magnetostatic [[]] =
      solveMatrix (1 : Matrix (Fin 0) (Fin 0) ℚ) [[]] := rfl
    have h5 : solveMatrix (1 : Matrix (Fin 0) (Fin 0) ℚ) [[]] = some [[]] := by simp [solveMatrix]
    unfold Excitation.solveDirect
    rw [if_pos (by rfl), h1]
    simp only [Option.bind_eq_bind, Option.bind_some, h2, List.head?_cons]
    rw [if_pos (by rfl), h3]
    simp only [Option.bind_some, h4, h5]
    rfl
  · have h1 : (exExc [("a", .voltageFixed, .num 2), ("coil", .current, .num 3)]).splitForSuperposition =
        some [("a", exExc [("a", .voltageFixed, .num 1), ("coil", .current, .num 0)]), ("coil", exExc [("a", .voltageFixed, .num 0), ("coil", .current, .num 1)])] := by
      unfold Excitation.splitForSuperposition
      rw [if_neg]
      · rfl
      · rintro ⟨_, h⟩; exact absurd h (by decide)
    have h2 : (exExc [("a", .voltageFixed, .num 2), ("coil", .current, .num 3)]).solveRhs exPhys .electrostatic [[1], [0]] =
      solveMatrix (1 : Matrix (Fin 1) (Fin 1) ℚ) [[1], [0]] := rfl
    rw [solveMatrix_one (by simp) _ (by simp) (by simp)] at h2
    have h4 : (exExc [("a", .voltageFixed, .num 2), ("coil", .current, .num 3)]).solveRhs exPhys .magnetostatic [[], []] =
      solveMatrix (1 : Matrix (Fin 0) (Fin 0) ℚ) [[], []] := rfl
    have h5 : solveMatrix (1 : Matrix (Fin 0) (Fin 0) ℚ) [[], []] = some [[], []] := by simp [solveMatrix]
    rw [h5] at h4
    unfold Excitation.solveSuperposition
    rw [h1, Option.bind_eq_bind, Option.bind_some]
    have e1 : ([("a", exExc [("a", .voltageFixed, .num 1), ("coil", .current, .num 0)]), ("coil", exExc [("a", .voltageFixed, .num 0), ("coil", .current, .num 1)])] :
        Dict (Excitation ℚ IPoint)).filter (fun p => p.2.isElectrostatic) = [("a", exExc [("a", .voltageFixed, .num 1), ("coil", .current, .num 0)]), ("coil", exExc [("a", .voltageFixed, .num 0), ("coil", .current, .num 1)])] := rfl
    have e2 : ([("a", exExc [("a", .voltageFixed, .num 1), ("coil", .current, .num 0)]), ("coil", exExc [("a", .voltageFixed, .num 0), ("coil", .current, .num 1)])] :
        Dict (Excitation ℚ IPoint)).filter (fun p => p.2.isMagnetostatic) = [("a", exExc [("a", .voltageFixed, .num 1), ("coil", .current, .num 0)]), ("coil", exExc [("a", .voltageFixed, .num 0), ("coil", .current, .num 1)])] := rfl
    have e3 : ([("a", exExc [("a", .voltageFixed, .num 1), ("coil", .current, .num 0)]), ("coil", exExc [("a", .voltageFixed, .num 0), ("coil", .current, .num 1)])] :
        Dict (Excitation ℚ IPoint)).mapM (fun p => p.2.rhs exPhys .electrostatic) = some [[1], [0]] := rfl
    have e4 : ([("a", exExc [("a", .voltageFixed, .num 1), ("coil", .current, .num 0)]), ("coil", exExc [("a", .voltageFixed, .num 0), ("coil", .current, .num 1)])] :
        Dict (Excitation ℚ IPoint)).mapM (fun p => p.2.rhs exPhys .magnetostatic) = some [[], []] := rfl
    simp only [e1, e2, e3, e4, h2, h4, Option.bind_eq_bind, Option.bind_some]
    rfl
  · decide
  · have h3 : (exExc [("a", .magnetostaticPot, .num 5), ("coil", .current, .num 3)]).rhs exPhys .magnetostatic = some [5] := rfl
    have h4 : (exExc [("a", .magnetostaticPot, .num 5), ("coil", .current, .num 3)]).solveRhs exPhys .magnetostatic [[5]] =
      solveMatrix (1 : Matrix (Fin 1) (Fin 1) ℚ) [[5]] := rfl
    rw [solveMatrix_one (by simp) _ (by simp) (by simp)] at h4
    unfold Excitation.solveDirect
    rw [if_neg (by decide), if_pos (by rfl), h3]
    simp only [Option.bind_eq_bind, Option.bind_some, h4]
    rfl
  · have h1 : (exExc [("a", .magnetostaticPot, .num 5), ("coil", .current, .num 3)]).splitForSuperposition =
        some [("coil", exExc [("a", .magnetostaticPot, .num 5), ("coil", .current, .num 1)])] := by
      unfold Excitation.splitForSuperposition
      rw [if_neg]
      · rfl
      · rintro ⟨_, h⟩; exact absurd h (by decide)
    have h2 : (exExc [("a", .magnetostaticPot, .num 5), ("coil", .current, .num 3)]).solveRhs exPhys .electrostatic [] =
      solveMatrix (1 : Matrix (Fin 0) (Fin 0) ℚ) [] := rfl
    have h2' : solveMatrix (1 : Matrix (Fin 0) (Fin 0) ℚ) [] = some [] := by simp [solveMatrix]
    rw [h2'] at h2
    have h4 : (exExc [("a", .magnetostaticPot, .num 5), ("coil", .current, .num 3)]).solveRhs exPhys .magnetostatic [[5]] =
      solveMatrix (1 : Matrix (Fin 1) (Fin 1) ℚ) [[5]] := rfl
    rw [solveMatrix_one (by simp) _ (by simp) (by simp)] at h4
    unfold Excitation.solveSuperposition
    rw [h1, Option.bind_eq_bind, Option.bind_some]
    have e1 : ([("coil", exExc [("a", .magnetostaticPot, .num 5), ("coil", .current, .num 1)])] :
        Dict (Excitation ℚ IPoint)).filter (fun p => p.2.isElectrostatic) = [] := rfl
    have e2 : ([("coil", exExc [("a", .magnetostaticPot, .num 5), ("coil", .current, .num 1)])] :
        Dict (Excitation ℚ IPoint)).filter (fun p => p.2.isMagnetostatic) = [("coil", exExc [("a", .magnetostaticPot, .num 5), ("coil", .current, .num 1)])] := rfl
    have e4 : ([("coil", exExc [("a", .magnetostaticPot, .num 5), ("coil", .current, .num 1)])] :
        Dict (Excitation ℚ IPoint)).mapM (fun p => p.2.rhs exPhys .magnetostatic) = some [[5]] := rfl
    have e3 : ([] : List (String × Excitation ℚ IPoint)).mapM (fun p => p.2.rhs exPhys .electrostatic) = some [] := rfl
    simp only [e1, e2, e3, e4, h2, h4, Option.bind_eq_bind, Option.bind_some]
    rfl

end Traceon
