import Verif.Profile.Purchase
import Verif.Profile.Genesis
import Verif.Profile.Owner

/-! Property C61: the end of extra messenger storage is scheduled. -/
namespace Verif.Profile
open Verif.Util Verif.Bank
open Verif.Schedule (Pending)

/-- A record of extra messenger storage (amount, end, automatic payment) that runs until `T`. -/
def Runs (now : Int) (m : Option (Nat × Option Int × Bool)) (T : Int) : Prop :=
  now < T ∧ ∃ l b, l ≠ 0 ∧ m = some (l, some T, b)

theorem Runs.unique {now now' : Int} {m : Option (Nat × Option Int × Bool)} {T T' : Int} (h : Runs now m T) (h' : Runs now' m T') : T = T' := by
  obtain ⟨-, l, b, -, rfl⟩ := h
  obtain ⟨-, l', b', -, h'⟩ := h'
  simp only [Option.some.injEq, Prod.mk.injEq] at h'
  exact h'.2.1

theorem runs_im {now T : Int} {o : Profile} : Runs now (some o.im) T ↔ o.imLimitExtra ≠ 0 ∧ o.extraImUntil = some T ∧ now < T := by
  unfold Runs Profile.im
  constructor
  · rintro ⟨h1, l, b, h2, h3⟩
    simp only [Option.some.injEq, Prod.mk.injEq] at h3
    exact ⟨h3.1 ▸ h2, h3.2.1, h1⟩
  · rintro ⟨h1, h2, h3⟩
    exact ⟨h3, _, _, h1, by rw [h2]⟩

/-- Outside the times `D` the messenger tasks are exactly those at the ends of running storages. -/
structure Kept (D : Int → Prop) (s : State) : Prop where
  own : ∀ T, ¬ D T → ∀ d ∈ ims s.sched T, ∃ a, d = [a] ∧ Runs s.now (imOf s a) T
  once : ∀ T, ¬ D T → (ims s.sched T).Nodup
  there : ∀ a T, ¬ D T → Runs s.now (imOf s a) T → [a] ∈ ims s.sched T

theorem Kept.same {D : Int → Prop} {s t : State} (h : Kept D s) (q : ImSame s t) : Kept D t := by
  refine ⟨fun T hT d hd => ?_, fun T hT => ?_, fun a T hT hr => ?_⟩
  · rw [q.ims] at hd
    obtain ⟨a, rfl, ha⟩ := h.own T hT d hd
    exact ⟨a, rfl, by rw [q.now, q.im]; exact ha⟩
  · rw [q.ims]; exact h.once T hT
  · rw [q.now, q.im] at hr
    rw [q.ims]; exact h.there a T hT hr

/-- A change about one address. -/
theorem Kept.change {D : Int → Prop} {s t : State} (h : Kept D s) (a : Addr) (hnow : t.now = s.now) (him : ∀ b, b ≠ a → imOf t b = imOf s b)
    (hrest : ∀ T, ¬ D T → (ims t.sched T).filter (fun d => d ≠ [a]) = (ims s.sched T).filter (fun d => d ≠ [a]))
    (hown : ∀ T, ¬ D T → ([a] ∈ ims t.sched T ↔ Runs s.now (imOf t a) T)) (honce : ∀ T, ¬ D T → (ims t.sched T).count [a] ≤ 1) :
    Kept D t := by
  have other : ∀ T, ¬ D T → ∀ d, d ≠ [a] → (d ∈ ims t.sched T ↔ d ∈ ims s.sched T) := by
    intro T hT d hd
    have := congrArg (d ∈ ·) (hrest T hT)
    simpa [hd] using this
  refine ⟨fun T hT d hd => ?_, fun T hT => ?_, fun b T hT hr => ?_⟩
  · by_cases hda : d = [a]
    · subst hda
      exact ⟨a, rfl, by rw [hnow]; exact (hown T hT).1 hd⟩
    · obtain ⟨b, rfl, hb⟩ := h.own T hT d ((other T hT d hda).1 hd)
      have hba : b ≠ a := fun hc => hda (by rw [hc])
      exact ⟨b, rfl, by rw [hnow, him b hba]; exact hb⟩
  · rw [List.nodup_iff_count_le_one]
    intro d
    by_cases hda : d = [a]
    · subst hda; exact honce T hT
    · have h1 := List.nodup_iff_count_le_one.1 (h.once T hT) d
      have h2 : ((ims t.sched T).filter (fun d => d ≠ [a])).count d = (ims t.sched T).count d := List.count_filter (by simpa using hda)
      have h3 : ((ims s.sched T).filter (fun d => d ≠ [a])).count d = (ims s.sched T).count d := List.count_filter (by simpa using hda)
      rw [← h2, hrest T hT, h3]; exact h1
  · rw [hnow] at hr
    by_cases hba : b = a
    · subst hba; exact (hown T hT).2 hr
    · rw [him b hba] at hr
      exact (other T hT [b] (by simpa using hba)).2 (h.there b T hT hr)

theorem Kept.count {D : Int → Prop} {s : State} (h : Kept D s) {T : Int} (hT : ¬ D T) (a : Addr) : (ims s.sched T).count [a] ≤ 1 :=
  List.nodup_iff_count_le_one.1 (h.once T hT) _

theorem Kept.mem {D : Int → Prop} {s : State} (h : Kept D s) {T : Int} (hT : ¬ D T) (a : Addr) :
    [a] ∈ ims s.sched T ↔ Runs s.now (imOf s a) T := by
  constructor
  · intro hd
    obtain ⟨b, hb, hr⟩ := h.own T hT _ hd
    simp only [List.cons.injEq, and_true] at hb
    rw [hb]; exact hr
  · exact h.there a T hT

/-! ### The stores after a step -/

theorem imOf_set_self {s t : State} {a : Addr} {n : Profile} (h : t.profiles = s.profiles.set a n) : imOf t a = some n.im := by
  unfold imOf; rw [h, KV.get_set_self]; rfl

theorem imOf_set_other {s t : State} {a b : Addr} {n : Profile} (h : t.profiles = s.profiles.set a n) (hb : b ≠ a) : imOf t b = imOf s b := by
  unfold imOf; rw [h]; simp only [KV.get_set, if_neg hb]

theorem imOf_get {s : State} {a : Addr} {o : Profile} (h : s.profiles.get a = some o) : imOf s a = some o.im := by
  unfold imOf; rw [h]; rfl

/-- A profile stored with another amount but the same end, before and after not zero. -/
theorem Kept.amount {D : Int → Prop} {s t : State} (h : Kept D s) {a : Addr} {o n : Profile} (ho : s.profiles.get a = some o)
    (hp : t.profiles = s.profiles.set a n) (hu : n.extraImUntil = o.extraImUntil) (hl : n.imLimitExtra = 0 ↔ o.imLimitExtra = 0)
    (hnow : t.now = s.now) (hims : ∀ T, ims t.sched T = ims s.sched T) : Kept D t := by
  refine h.change a hnow (fun b hb => imOf_set_other hp hb) (fun T _ => by rw [hims]) (fun T hT => ?_) (fun T hT => by rw [hims]; exact h.count hT a)
  rw [hims, h.mem hT, imOf_set_self hp, imOf_get ho, runs_im, runs_im, hu, ne_eq, ne_eq, hl]

/-- New storage with its task. -/
theorem Kept.start {D : Int → Prop} {s t : State} (h : Kept D s) {a : Addr} {n : Profile} {v : Int} (hno : ∀ T, ¬ Runs s.now (imOf s a) T)
    (hp : t.profiles = s.profiles.set a n) (hu : n.extraImUntil = some v) (hl : n.imLimitExtra ≠ 0) (hv : s.now < v)
    (hnow : t.now = s.now) (hims : ∀ T, ims t.sched T = ims s.sched T ++ if T = v then [[a]] else []) : Kept D t := by
  have hnot : ∀ T, ¬ D T → [a] ∉ ims s.sched T := fun T hT hc => hno T ((h.mem hT a).1 hc)
  refine h.change a hnow (fun b hb => imOf_set_other hp hb) (fun T hT => ?_) (fun T hT => ?_) (fun T hT => ?_)
  · rw [hims, List.filter_append]
    split <;> simp
  · rw [hims, imOf_set_self hp, runs_im, List.mem_append]
    constructor
    · rintro (hc | hc)
      · exact absurd hc (hnot T hT)
      · split at hc
        · next hTv => exact ⟨hl, by rw [hu, hTv], by rw [hTv]; exact hv⟩
        · simp at hc
    · rintro ⟨-, h2, -⟩
      rw [hu] at h2; injection h2 with h2
      right; rw [if_pos h2.symm]; simp
  · rw [hims, List.count_append, List.count_eq_zero_of_not_mem (hnot T hT)]
    split <;> simp

/-- Storage ended, its task gone (from times that matter). -/
theorem Kept.stop {D : Int → Prop} {s t : State} (h : Kept D s) {a : Addr} {n : Profile}
    (hp : t.profiles = s.profiles.set a n) (hl : ∀ T, ¬ Runs s.now (some n.im) T) (hnow : t.now = s.now)
    (hims : ∀ T, ¬ D T → ims t.sched T = (ims s.sched T).filter (fun d => d ≠ [a])) : Kept D t := by
  refine h.change a hnow (fun b hb => imOf_set_other hp hb) (fun T hT => ?_) (fun T hT => ?_) (fun T hT => ?_)
  · rw [hims T hT, List.filter_filter]
    congr 1; funext d; simp
  · rw [imOf_set_self hp, hims T hT]
    constructor
    · intro hc; simp at hc
    · intro hc; exact absurd hc (hl T)
  · rw [hims T hT, List.count_eq_zero_of_not_mem (by simp)]; omega

/-- Storage prolonged, its task moved. -/
theorem Kept.move {D : Int → Prop} {s t : State} (h : Kept D s) {a : Addr} {o n : Profile} {v v' : Int} (ho : s.profiles.get a = some o)
    (hov : o.extraImUntil = some v) (hp : t.profiles = s.profiles.set a n) (hu : n.extraImUntil = some v') (hl : n.imLimitExtra ≠ 0)
    (hv : s.now < v') (hnow : t.now = s.now)
    (hims : ∀ T, ims t.sched T = (if T = v then (ims s.sched T).filter (fun d => d ≠ [a]) else ims s.sched T) ++ if T = v' then [[a]] else []) :
    Kept D t := by
  have hnot : ∀ T, ¬ D T → T ≠ v → [a] ∉ ims s.sched T := by
    intro T hT hTv hc
    have := (h.mem hT a).1 hc
    rw [imOf_get ho, runs_im, hov] at this
    exact hTv (Option.some.inj this.2.1).symm
  have hnot' : ∀ T, ¬ D T → [a] ∉ (if T = v then (ims s.sched T).filter (fun d => d ≠ [a]) else ims s.sched T) := by
    intro T hT
    split
    · simp
    · next hTv => exact hnot T hT hTv
  refine h.change a hnow (fun b hb => imOf_set_other hp hb) (fun T hT => ?_) (fun T hT => ?_) (fun T hT => ?_)
  · rw [hims, List.filter_append]
    have : (if T = v' then [[a]] else []).filter (fun d => d ≠ [a]) = [] := by split <;> simp
    rw [this, List.append_nil]
    split
    · rw [List.filter_filter]; congr 1; funext d; simp
    · rfl
  · rw [hims, imOf_set_self hp, runs_im, List.mem_append]
    constructor
    · rintro (hc | hc)
      · exact absurd hc (hnot' T hT)
      · split at hc
        · next hTv => exact ⟨hl, by rw [hu, hTv], by rw [hTv]; exact hv⟩
        · simp at hc
    · rintro ⟨-, h2, -⟩
      rw [hu] at h2; injection h2 with h2
      right; rw [if_pos h2.symm]; simp
  · rw [hims, List.count_append, List.count_eq_zero_of_not_mem (hnot' T hT)]
    split <;> simp

/-! ### Operations -/

theorem schedule_ims_eq {T : Int} {a : Addr} {s s' : State} {u : Unit} (hs : onSched (.schedule T refreshImHook [a]) s = (.ok u, s')) (T' : Int) :
    ims s'.sched T' = ims s.sched T' ++ if T' = T then [[a]] else [] := by
  unfold onSched at hs
  rcases hr : (Schedule.Req.schedule T refreshImHook [a]).exec? s.sched with _ | r
  · rw [hr] at hs; simp at hs
  · rw [hr] at hs
    simp only [Prod.mk.injEq] at hs
    obtain ⟨-, rfl⟩ := hs
    show ims r T' = _
    rw [ims_schedule hr]
    simp only [and_true]

theorem buyIm_kept {D : Int → Prop} {e : Env} {a : Addr} {g : Nat} {s t : State} {u : Unit} (hm : 0 < e.month)
    (hg : ∀ o, s.profiles.get a = some o → o.imLimitExtra + g < 2 ^ 64) (h : buyIm e a g s = (.ok u, t)) (hk : Kept D s) : Kept D t := by
  unfold buyIm at h
  rw [M.errIf_bind_ok, M.get_bind_ok, M.orPanic_bind_ok] at h
  obtain ⟨h0, o, ho, h⟩ := h
  rw [M.orPanic_bind_ok] at h
  obtain ⟨f, hf, h⟩ := h
  rw [M.orPanic_bind_ok] at h
  obtain ⟨x, hx, h⟩ := h
  rw [M.panicIf_bind_ok, M.bind_ok_iff] at h
  obtain ⟨hpos, _, s1, h1, h⟩ := h
  obtain ⟨fee, -, -, -, -, q, hq⟩ := paySplit_ok h1
  have hg0 : g ≠ 0 := by simpa using h0
  have hg1 := hg o ho
  by_cases hact : o.isImActive s.now = true
  · rw [if_pos hact] at h
    obtain ⟨hl, v, hv, hlt⟩ := isImActive_iff.1 hact
    have hu : u64 ((o.imLimitExtra : Int) + g) = o.imLimitExtra + g := by unfold u64; omega
    rw [hu] at h
    obtain ⟨b4, p4, -, n4⟩ := setProfile_same_ok (o := o) h (by rw [q.profiles]; exact ho) rfl rfl
    have hims := setProfile_calm e a { o with imLimitExtra := o.imLimitExtra + g } s1
    rw [h] at hims
    refine hk.amount (n := { o with imLimitExtra := o.imLimitExtra + g }) ho (by rw [p4, q.profiles]) rfl ?_ (n4.trans q.now) (fun T => by rw [hims.ims, hq])
    show o.imLimitExtra + g = 0 ↔ _
    omega
  · rw [if_neg hact, M.bind_ok_iff] at h
    obtain ⟨_, s2, h2, h⟩ := h
    have q2 := schedule_quiet (s.now + e.month) refreshImHook [a] s1
    have h2' : onSched (.schedule (s.now + e.month) refreshImHook [a]) s1 = (.ok _, s2) := h2
    rw [h2'] at q2
    obtain ⟨b4, p4, -, n4⟩ := setProfile_same_ok (o := o) h (by rw [q2.profiles, q.profiles]; exact ho) rfl rfl
    have hims := setProfile_calm e a { o with imLimitExtra := g, extraImUntil := some (s.now + e.month) } s2
    rw [h] at hims
    refine hk.start (v := s.now + e.month) (n := { o with imLimitExtra := g, extraImUntil := some (s.now + e.month) }) (fun T hr => hact ?_) (by rw [p4, q2.profiles, q.profiles]) rfl hg0 (by omega)
      (n4.trans (q2.now.trans q.now)) (fun T => by rw [hims.ims, schedule_ims_eq h2', hq])
    rw [imOf_get ho, runs_im] at hr
    exact isImActive_iff.2 ⟨hr.1, T, hr.2.1, hr.2.2⟩

theorem giveImUp_kept {D : Int → Prop} {e : Env} {a : Addr} {g : Nat} {s t : State} {u : Unit} (h : giveImUp e a g s = (.ok u, t))
    (hk : Kept D s) : Kept D t := by
  have hq : t.now = s.now := by
    have : Now (giveImUp e a g) := by
      refine .bind (Quiet.nowK .get) fun _ => .bind (Quiet.orPanic _).nowK fun _ => .bind (Quiet.errIf _).nowK fun _ => ?_
      split
      · exact .bind (deleteIm_quiet _ _).nowK fun _ => setProfile_now e a _
      · exact setProfile_now e a _
    have := this s
    rw [h] at this; exact this
  have h' := h
  unfold giveImUp at h
  rw [M.get_bind_ok, M.orPanic_bind_ok] at h
  obtain ⟨o, ho, h⟩ := h
  rw [M.errIf_bind_ok] at h
  obtain ⟨-, h⟩ := h
  obtain ⟨-, o', v, ho', hv, hlt, hgl, h1, h2⟩ := C59_give_up h'
  rw [ho] at ho'; injection ho' with ho'; subst ho'
  by_cases hg : g = 0
  · rw [if_pos hg, M.bind_ok_iff] at h
    obtain ⟨_, s1, h3, h⟩ := h
    rw [hv, Option.getD_some] at h3
    have hims := setProfile_calm e a { o with imLimitExtra := 0, extraImUntil := none } s1
    rw [h] at hims
    obtain ⟨p4, -, -, -⟩ := h2 hg
    refine hk.stop p4 (fun T hr => ?_) hq fun T hT => ?_
    · rw [runs_im] at hr; exact hr.1 rfl
    · rw [hims.ims, delete_ims h3]
      split
      · rfl
      · next hTv =>
        symm
        rw [List.filter_eq_self]
        intro d hd
        simp only [ne_eq, decide_not, Bool.not_eq_eq_eq_not, Bool.not_true, decide_eq_false_iff_not]
        rintro rfl
        have := (hk.mem hT a).1 hd
        rw [imOf_get ho, runs_im, hv] at this
        exact hTv (Option.some.inj this.2.1).symm
  · obtain ⟨p4, hims⟩ := h1 hg
    refine hk.amount ho p4 rfl ?_ hq hims
    show g = 0 ↔ _
    omega

/-- What a successful prolongation does to tasks and record. -/
theorem prolong_ims {e : Env} {a : Addr} {o n : Profile} {s t : State} (h : prolong e a o s = (.ok n, t)) :
    ∃ v, o.imLimitExtra ≠ 0 ∧ o.extraImUntil = some v ∧ n = { o with extraImUntil := some (v + e.month) } ∧
      ∀ T, ims t.sched T = (if T = v then (ims s.sched T).filter (fun d => d ≠ [a]) else ims s.sched T) ++
        if T = v + e.month then [[a]] else [] := by
  unfold prolong at h
  rw [M.errIf_bind_ok, M.get_bind_ok, M.orPanic_bind_ok] at h
  obtain ⟨h0, f, hf, h⟩ := h
  rw [M.orPanic_bind_ok] at h
  obtain ⟨x, hx, h⟩ := h
  rw [M.panicIf_bind_ok, M.bind_ok_iff] at h
  obtain ⟨hpos, _, s1, h1, h⟩ := h
  obtain ⟨-, -, -, -, -, -, hq⟩ := paySplit_ok h1
  simp only [Bool.or_eq_false_iff, decide_eq_false_iff_not, Option.isNone_eq_false_iff] at h0
  obtain ⟨h01, h02⟩ := h0
  obtain ⟨v, hv⟩ := Option.isSome_iff_exists.1 h02
  rw [hv, Option.getD_some] at h
  rw [M.bind_ok_iff] at h
  obtain ⟨_, s2, h2, h⟩ := h
  rw [M.bind_ok_iff] at h
  obtain ⟨_, s3, h3, h⟩ := h
  obtain ⟨rfl, rfl⟩ := M.pure_ok.1 h
  have h3' : onSched (.schedule (v + e.month) refreshImHook [a]) s2 = (.ok _, s3) := h3
  exact ⟨v, h01, hv, rfl, fun T => by rw [schedule_ims_eq h3', delete_ims h2, hq]⟩

theorem prolongIm_kept {D : Int → Prop} {e : Env} {a : Addr} {s t : State} {u : Unit}
    (hv : ∀ o v, s.profiles.get a = some o → o.extraImUntil = some v → s.now < v + e.month) (h : prolongIm e a s = (.ok u, t))
    (hk : Kept D s) : Kept D t := by
  unfold prolongIm at h
  rw [M.get_bind_ok, M.orPanic_bind_ok] at h
  obtain ⟨o, ho, h⟩ := h
  rw [M.bind_ok_iff] at h
  obtain ⟨n, s1, h1, h⟩ := h
  obtain ⟨v, hl, hov, rfl, hims1⟩ := prolong_ims h1
  have q := prolong_quiet e a o s
  rw [h1] at q
  obtain ⟨b4, p4, -, n4⟩ := setProfile_same_ok (o := o) h (by rw [q.profiles]; exact ho) rfl rfl
  have hims := setProfile_calm e a { o with extraImUntil := some (v + e.month) } s1
  rw [h] at hims
  exact hk.move (n := { o with extraImUntil := some (v + e.month) }) ho hov (by rw [p4, q.profiles]) rfl hl (hv o v ho hov) (n4.trans q.now) (fun T => by rw [hims.ims, hims1])

theorem updateProfile_kept {D : Int → Prop} {e : Env} {a : Addr} {us : List Update} {s t : State} {u : Unit}
    (h : updateProfile e a us s = (.ok u, t)) (hk : Kept D s) : Kept D t := by
  obtain ⟨-, -, o, ho, hp⟩ := C60_update h
  have hc : Calm (updateProfile e a us) := .bind (.errIf _) fun _ => .bind (.errIf _) fun _ => .bind .get fun _ => .bind (.orPanic _) fun _ =>
    setProfile_calm e a _
  have hc := hc s
  rw [h] at hc
  exact hk.amount ho hp rfl Iff.rfl hc.now hc.ims

theorem createAccount_kept {T : TextOps} {D : Int → Prop} {e : Env} {c a r : Addr} {p : Option Profile} {s t : State} {u : Unit}
    (hp : ∀ v, ¬ Runs s.now (some (p.getD {}).im) v) (h : createAccount e c a r p s = (.ok u, t)) (hi : Ids T s) (hk : Kept D s) : Kept D t := by
  obtain ⟨s1, s2, h0, q1, q2, h3⟩ := createAccount_parts h
  have hc : Calm (createAccount e c a r p) := .bind .get fun _ => .bind (.errIf _) fun _ => .bind (.when (chargeFee_calm _ _ _)) fun _ =>
    .bind (newAccount_calm _) fun _ => .bind (onReferral_calm _) fun _ => .bind .get fun _ => setProfile_calm e a _
  have hc := hc s
  rw [h] at hc
  have hno : s.profiles.get a = none := by
    rcases ho : s.profiles.get a with _ | o
    · rfl
    · obtain ⟨n, hn, -⟩ := hi.cards a o ho
      rw [h0] at hn; cases hn
  have hprof : s2.profiles = s.profiles := q2.profiles.trans q1.profiles
  rcases setProfile_stores e a { p.getD {} with cardNumber := s.nextAcc ^^^ s.params.cardMagic } s2 with f | ⟨cn, f⟩
  · rw [h3] at f
    exact hk.same (hc.same (f.profiles.trans hprof))
  · rw [h3] at f
    have hpr : t.profiles = s.profiles.set a { p.getD {} with cardNumber := cn } := by
      rw [f.profiles]
      show s2.profiles.set a _ = _
      rw [hprof]
    refine hk.stop hpr (fun v hr => hp v hr) hc.now fun v hv => ?_
    rw [hc.ims]
    symm
    rw [List.filter_eq_self]
    intro d hd
    simp only [ne_eq, decide_not, Bool.not_eq_eq_eq_not, Bool.not_true, decide_eq_false_iff_not]
    rintro rfl
    have := (hk.mem hv a).1 hd
    unfold imOf at this
    rw [hno] at this
    obtain ⟨-, l, b, -, hlb⟩ := this
    cases hlb

/-! ### The task -/

/-- A profile on record can always be saved with another messenger part. -/
theorem setProfile_always {T : TextOps} {e : Env} (he : e.text = T) {a : Addr} {o p : Profile} {s : State} (ho : s.profiles.get a = some o)
    (hn : p.nickname = o.nickname) (hc : p.cardNumber = o.cardNumber) (hu : p.activeUntil = o.activeUntil) (hi : Ids T s) (hcl : Clear T s) :
    setProfile e a p s = (.ok (), { s with profiles := s.profiles.set a p }) := by
  obtain ⟨n, hacc, -⟩ := hi.cards a o ho
  have hok : nicknameOk e s a (e.text.trim p.nickname) = true := by
    unfold nicknameOk byNickname
    rw [he, hn]
    by_cases h0 : T.trim o.nickname = []
    · simp [h0]
    · rcases hcl a o ho with h | h
      · exact absurd h h0
      · rw [hi.nicks a o ho h0, h]; simp
  have htell : tellReferral e a (some o) p { s with profiles := s.profiles.set a p } = (.ok (), { s with profiles := s.profiles.set a p }) := by
    unfold tellReferral
    rw [M.bind_ok (M.get_apply _), if_neg]
    · rfl
    · simp [Profile.isActive, hu]
  unfold setProfile
  rw [M.bind_ok (M.get_apply s), errIf_cases, if_neg (by simp [hok])]
  have h1 : updateAlias e a (s.profiles.get a) p.nickname s = (.ok (), s) := by
    rw [ho]; unfold updateAlias; dsimp only
    rw [if_neg (by simp [hn])]; rfl
  have h2 : updateCard a (s.profiles.get a) p.cardNumber s = (.ok p.cardNumber, s) := by
    rw [ho]; unfold updateCard; dsimp only
    split
    · rw [M.bind_ok (a := ()) (s' := s)]
      · rfl
      · simp [when, hc]
    · rw [hc]; rfl
  rw [M.bind_ok h1, M.bind_ok h2]
  have h3 : storeProfile a { p with cardNumber := p.cardNumber } s = (.ok (), { s with profiles := s.profiles.set a p }) := rfl
  rw [M.bind_ok h3, M.bind_ok (ensureAccount_has (by exact has_of_get hacc)), ho, htell]

/-- A failed prolongation leaves all tasks alone but perhaps the old one. -/
theorem prolong_fails {e : Env} {a : Addr} {o : Profile} {v : Int} (hv : o.extraImUntil = some v) {s : State}
    (h : ∀ n t, prolong e a o s ≠ (.ok n, t)) (T : Int) (hT : T ≠ v) : ims (prolong e a o s).2.sched T = ims s.sched T := by
  unfold prolong at h ⊢
  rw [errIf_cases] at h ⊢
  split
  · rfl
  rename_i h0
  rw [if_neg h0] at h
  rw [M.bind_ok (M.get_apply s)] at h ⊢
  rcases h1 : s.params.tokenRate.mulInt? (wrap64 (wrap64 o.imLimitExtra * s.params.storageGbPrice)) with _ | x
  · rfl
  rw [h1, M.bind_ok (M.orPanic_some x s)] at h
  rw [M.bind_ok (M.orPanic_some x s)]
  rcases h2 : x.int64? with _ | y
  · rfl
  rw [h2, M.bind_ok (M.orPanic_some y s)] at h
  rw [M.bind_ok (M.orPanic_some y s)]
  rcases hy : decide (y ≤ 0) with _ | _
  swap
  · rfl
  have hp0 : (M.panicIf false : M State Unit) s = (.ok (), s) := rfl
  rw [hy, M.bind_ok hp0] at h
  rw [M.bind_ok hp0]
  have c := paySplit_calm e a y s
  rcases h3 : paySplit e a y s with ⟨r, s1⟩
  rw [h3] at c
  cases r with
  | err => rw [M.bind_err h3]; exact c.ims T
  | panic => rw [M.bind_panic h3]; exact c.ims T
  | ok w =>
    rw [M.bind_ok h3] at h ⊢
    rw [hv, Option.getD_some] at h ⊢
    rw [M.bind_apply] at h ⊢
    rcases h4 : onSched (.delete v refreshImHook [a]) s1 with ⟨r, s2⟩
    rw [h4] at h
    have hs2 : ims s2.sched T = ims s1.sched T := by
      cases r with
      | ok w => rw [delete_ims h4, if_neg hT]
      | err =>
        unfold onSched at h4
        split at h4 <;> cases h4
      | panic =>
        unfold onSched at h4
        split at h4 <;> cases h4
        rfl
    cases r with
    | err => exact hs2.trans (c.ims T)
    | panic => exact hs2.trans (c.ims T)
    | ok w =>
      dsimp only at h ⊢
      rw [M.bind_apply] at h ⊢
      have hx : scheduleRenewIm a (v + e.month) = onSched (.schedule (v + e.month) refreshImHook [a]) := rfl
      rw [hx] at h ⊢
      rcases h5 : onSched (.schedule (v + e.month) refreshImHook [a]) s2 with ⟨r, s3⟩
      rw [h5] at h
      cases r with
      | ok w => exact absurd rfl (h _ _)
      | err =>
        unfold onSched at h5
        split at h5 <;> cases h5
      | panic =>
        unfold onSched at h5
        split at h5 <;> cases h5
        exact hs2.trans (c.ims T)

theorem Kept.blind {D : Int → Prop} {s t : State} (h : Kept D s) (hnow : t.now = s.now) (him : ∀ b, imOf t b = imOf s b)
    (hims : ∀ T, ¬ D T → ims t.sched T = ims s.sched T) : Kept D t := by
  refine ⟨fun T hT d hd => ?_, fun T hT => ?_, fun a T hT hr => ?_⟩
  · rw [hims T hT] at hd
    obtain ⟨a, rfl, ha⟩ := h.own T hT d hd
    exact ⟨a, rfl, by rw [hnow, him]; exact ha⟩
  · rw [hims T hT]; exact h.once T hT
  · rw [hnow, him] at hr
    rw [hims T hT]; exact h.there a T hT hr

theorem monthlyIm_kept {X : TextOps} {D : Int → Prop} {e : Env} (he : e.text = X) {a : Addr} {s : State} {v : Int} {l : Nat} {b : Bool}
    (hi : Ids X s) (hcl : Clear X s) (hk : Kept D s) (him : imOf s a = some (l, some v, b)) (hD : D v) (hv : s.now < v + e.month) :
    Kept D (monthlyIm e a s).2 := by
  obtain ⟨o, ho, hoi⟩ : ∃ o, s.profiles.get a = some o ∧ o.im = (l, some v, b) := by
    unfold imOf at him
    rcases hh : s.profiles.get a with _ | o
    · rw [hh] at him; cases him
    · rw [hh] at him; exact ⟨o, rfl, Option.some.inj him⟩
  have hov : o.extraImUntil = some v := congrArg (fun x => x.2.1) hoi
  have hne : ∀ T, ¬ D T → T ≠ v := fun T hT hc => hT (hc ▸ hD)
  have drop : ∀ s', Same s s' → s'.now = s.now → (∀ T, ¬ D T → ims s'.sched T = ims s.sched T) →
      Kept D (setProfile e a { o with imLimitExtra := 0, extraImUntil := none, autoPayImExtra := false } s').2 := by
    intro s' q hn' hs'
    have hi' := q.ids hi
    have hcl' : Clear X s' := hcl.of_profiles q.profiles
    have ho' : s'.profiles.get a = some o := by rw [q.profiles]; exact ho
    rw [setProfile_always (p := { o with imLimitExtra := 0, extraImUntil := none, autoPayImExtra := false }) he ho' rfl rfl rfl hi' hcl']
    have hk' := hk.blind hn' (imOf_congr q.profiles) hs'
    refine hk'.stop (n := { o with imLimitExtra := 0, extraImUntil := none, autoPayImExtra := false }) rfl (fun T hr => ?_) rfl fun T hT => ?_
    · rw [runs_im] at hr; exact hr.1 rfl
    · symm
      show (ims s'.sched T).filter _ = ims s'.sched T
      rw [List.filter_eq_self]
      intro d hd
      simp only [ne_eq, decide_not, Bool.not_eq_eq_eq_not, Bool.not_true, decide_eq_false_iff_not]
      rintro rfl
      have := (hk'.mem hT a).1 hd
      rw [imOf_get ho', runs_im, hov] at this
      exact hne T hT (Option.some.inj this.2.1).symm
  unfold monthlyIm
  rw [M.bind_ok (M.get_apply s), ho, M.bind_ok (M.orPanic_some o s)]
  by_cases hauto : o.autoPayImExtra = true
  · rw [if_pos hauto, M.bind_apply]
    have q := prolong_quiet e a o s
    unfold onErr
    rcases hp : prolong e a o s with ⟨r, s1⟩
    rw [hp] at q
    cases r with
    | ok n =>
      obtain ⟨v', hl, hov', rfl, hims⟩ := prolong_ims hp
      rw [hov] at hov'; injection hov' with hov'; subst hov'
      dsimp only
      have ho' : s1.profiles.get a = some o := by rw [q.profiles]; exact ho
      rw [setProfile_always (p := { o with extraImUntil := some (v + e.month) }) he ho' rfl rfl rfl (q.ids hi) (hcl.of_profiles q.profiles)]
      refine hk.move (n := { o with extraImUntil := some (v + e.month) }) ho hov ?_ rfl hl hv q.now hims
      show s1.profiles.set a _ = _
      rw [q.profiles]
    | err =>
      have hf := prolong_fails (e := e) (a := a) hov (s := s) (fun n t hc => by rw [hp] at hc; cases hc)
      rw [hp] at hf
      exact drop s1 q q.now fun T hT => hf T (hne T hT)
    | panic =>
      have hf := prolong_fails (e := e) (a := a) hov (s := s) (fun n t hc => by rw [hp] at hc; cases hc)
      rw [hp] at hf
      exact hk.blind q.now (imOf_congr q.profiles) fun T hT => hf T (hne T hT)
  · rw [if_neg hauto, M.bind_apply]
    exact drop s (.refl s) rfl fun _ _ => rfl

/-! ### Blocks -/

/-- The messenger tasks of a list. -/
def imData (l : List Schedule.Task) : List (List Nat) := (l.filter (fun x => x.handler == refreshImHook)).map (·.data)

/-- In the middle of a block: what is known of the tasks still to run. -/
structure Busy (X : TextOps) (D : Int → Prop) (old now : Int) (l : List Schedule.Task) (s : State) : Prop where
  kept : Kept D s
  now : s.now = now
  ids : Ids X s
  clear : Clear X s
  nodup : (imData l).Nodup
  due : ∀ d ∈ imData l, ∃ a v m b, d = [a] ∧ D v ∧ old < v ∧ imOf s a = some (m, some v, b)

theorem imData_cons_im {x : Schedule.Task} (l : List Schedule.Task) (h : x.handler = refreshImHook) : imData (x :: l) = x.data :: imData l := by
  unfold imData; rw [List.filter_cons_of_pos (by simp [h])]; rfl

theorem imData_cons_other {x : Schedule.Task} (l : List Schedule.Task) (h : x.handler ≠ refreshImHook) : imData (x :: l) = imData l := by
  unfold imData; rw [List.filter_cons_of_neg (by simp [h])]

theorem runTask_busy {X : TextOps} {D : Int → Prop} {old now : Int} {e : Schedule.Task → Env} {f : Schedule.Task → Foreign} {x : Schedule.Task}
    {l : List Schedule.Task} {s : State} (he : (e x).text = X) (hm : now < old + (e x).month) (h : Busy X D old now (x :: l) s) :
    Busy X D old now l (runTask e f x s) := by
  have hids := (runTask_pres (T := X) e f x s).1 h.ids
  have same : ∀ t, ImSame s t → Ids X t → Clear X t → x.handler ≠ refreshImHook → Busy X D old now l t := by
    intro t q h1 h2 hx
    have hd := h.due
    have hn := h.nodup
    rw [imData_cons_other l hx] at hd hn
    refine ⟨h.kept.same q, q.now.trans h.now, h1, h2, hn, fun d hd' => ?_⟩
    obtain ⟨a, v, m, b, g1, g2, g3, g4⟩ := hd d hd'
    exact ⟨a, v, m, b, g1, g2, g3, by rw [q.im]; exact g4⟩
  unfold runTask at hids ⊢
  split
  · next hx =>
    rw [if_pos hx] at hids
    exact same _ (monthly_presI (e x) (target x) s) hids (monthly_clear he _ s h.clear) (by rw [hx]; decide)
  · next hx =>
    rw [if_neg hx] at hids
    split
    · next hx2 =>
      rw [if_pos hx2] at hids
      have hd := h.due
      have hn := h.nodup
      rw [imData_cons_im l hx2] at hd hn
      obtain ⟨a, v, m, b, g1, g2, g3, g4⟩ := hd x.data (by simp)
      have hta : target x = a := by unfold target; rw [g1]; rfl
      rw [hta] at hids ⊢
      have hnow : (monthlyIm (e x) a s).2.now = s.now := monthlyIm_now (e x) a s
      refine ⟨monthlyIm_kept he h.ids h.clear h.kept g4 g2 (by rw [h.now]; omega), hnow.trans h.now, hids, monthlyIm_clear he _ s h.clear,
        (List.nodup_cons.1 hn).2, fun d hd' => ?_⟩
      obtain ⟨a', v', m', b', k1, k2, k3, k4⟩ := hd d (by simp [hd'])
      have hne : a' ≠ a := by
        rintro rfl
        refine (List.nodup_cons.1 hn).1 ?_
        rw [g1, ← k1]; exact hd'
      refine ⟨a', v', m', b', k1, k2, k3, ?_⟩
      rw [← k4]
      unfold imOf
      rw [(monthlyIm_only (e x) a s).1 a' hne]
    · next hx2 =>
      rw [if_neg hx2] at hids
      exact same _ (foreign_im (f x) s) hids (h.clear.of_profiles (addAccounts_profiles _ _)) hx2

theorem runTasks_busy {X : TextOps} {D : Int → Prop} {old now : Int} {e : Schedule.Task → Env} {f : Schedule.Task → Foreign}
    (he : ∀ x, (e x).text = X) (hm : ∀ x, now < old + (e x).month) (l : List Schedule.Task) {s : State} (h : Busy X D old now l s) :
    Busy X D old now [] (runTasks e f l s) := by
  induction l generalizing s with
  | nil => exact h
  | cons x l ih => exact ih (runTask_busy (he x) (hm x) h)

theorem imData_due (now : Int) (s : Schedule.State) : imData (dueTasks now s) = ((Schedule.dueKeys now s).map (ims s)).flatten := by
  unfold imData dueTasks Schedule.dueKeys
  rw [List.filter_flatten, List.map_flatten, List.map_map, List.map_map, List.map_map]
  congr 1
  apply List.map_congr_left
  intro x hx
  have := KV.mem_entries.1 (List.mem_filter.1 hx).1
  simp only [Function.comp_apply, ims, this, Option.getD_some]

theorem Kept.start_block {X : TextOps} {s : State} (h : Kept (fun _ => False) s) {now : Int} (hle : s.now ≤ now) (hi : Ids X s) (hc : Clear X s) :
    Busy X (· ∈ Schedule.dueKeys now s.sched) s.now now (dueTasks now s.sched) { s with now := now } := by
  have late : ∀ T d, T ∉ Schedule.dueKeys now s.sched → d ∈ ims s.sched T → now < T := by
    intro T d hT hd
    by_contra hc
    refine hT (Schedule.mem_dueKeys.2 ⟨by omega, ?_⟩)
    unfold ims at hd
    rcases hg : s.sched.store.get T with _ | l
    · rw [hg] at hd; simp at hd
    · exact ⟨l, rfl⟩
  refine ⟨⟨fun T hT d hd => ?_, fun T _ => h.once T id, fun a T _ hr => ?_⟩, rfl, ⟨hi.nicks, ⟨hi.accs.lt, hi.accs.inj⟩, hi.cards⟩,
    hc.of_profiles rfl, ?_, ?_⟩
  · obtain ⟨a, rfl, hr⟩ := h.own T id d hd
    exact ⟨a, rfl, late T _ hT hd, hr.2⟩
  · refine h.there a T id ⟨?_, hr.2⟩
    have := hr.1
    dsimp only at this
    omega
  · rw [imData_due, List.nodup_flatten]
    constructor
    · intro l hl
      obtain ⟨T, -, rfl⟩ := List.mem_map.1 hl
      exact h.once T id
    · rw [List.pairwise_map]
      have hnd : (Schedule.dueKeys now s.sched).Nodup := s.sched.store.keys_nodup.sublist (List.Sublist.map _ List.filter_sublist)
      refine hnd.imp fun {T T'} hne => ?_
      rw [List.disjoint_left]
      intro d hd hd'
      obtain ⟨a, rfl, hr⟩ := h.own T id d hd
      obtain ⟨a', ha', hr'⟩ := h.own T' id _ hd'
      simp only [List.cons.injEq, and_true] at ha'
      subst ha'
      exact hne (hr.unique hr')
  · intro d hd
    rw [imData_due, List.mem_flatten] at hd
    obtain ⟨l, hl, hd⟩ := hd
    obtain ⟨T, hT, rfl⟩ := List.mem_map.1 hl
    obtain ⟨a, rfl, hr, m, b, -, hm⟩ := h.own T id d hd
    exact ⟨a, T, m, b, rfl, hT, hr, hm⟩

theorem block_kept {X : TextOps} {e : Schedule.Task → Env} {f : Schedule.Task → Foreign} {now : Int} {s : State} (he : ∀ x, (e x).text = X)
    (hm : ∀ x, now < s.now + (e x).month) (hle : s.now ≤ now) (hi : Ids X s) (hc : Clear X s) (h : Kept (fun _ => False) s) :
    Kept (fun _ => False) (block e f now s) := by
  have hb := runTasks_busy (f := f) he hm _ (h.start_block hle hi hc)
  have hims : ∀ T, ims (block e f now s).sched T = if T ∈ Schedule.dueKeys now s.sched then [] else
      ims (runTasks e f (dueTasks now s.sched) { s with now := now }).sched T := by
    intro T
    unfold ims block
    dsimp only
    rw [Schedule.get_eraseAll]
    split <;> rfl
  refine ⟨fun T _ d hd => ?_, fun T _ => ?_, fun a T _ hr => ?_⟩
  · rw [hims] at hd
    split at hd
    · simp at hd
    · next hT => exact hb.kept.own T hT d hd
  · rw [hims]
    split
    · exact List.nodup_nil
    · next hT => exact hb.kept.once T hT
  · have hnow : now < T := by
      have := hr.1
      have h2 : (block e f now s).now = now := hb.now
      rw [h2] at this; exact this
    rw [hims, if_neg (fun hT => by have := (Schedule.mem_dueKeys.1 hT).1; omega)]
    refine hb.kept.there a T (fun hT => by have := (Schedule.mem_dueKeys.1 hT).1; omega) hr

/-! ### Executions -/

/-- What is asked of an operation: the creation of an account does not bring running messenger storage along; amounts fit 64 bits; months
are positive; one does not prolong what ended more than a month ago; block times grow, by less than a month at once. -/
def Op.Steady (X : TextOps) (e : Env) (s : State) : Op → Prop
  | .createAccount _ _ _ p => ∀ q v, p = some q → q.imLimitExtra ≠ 0 → q.extraImUntil = some v → v ≤ s.now
  | .buyIm a g => 0 < e.month ∧ ∀ o, s.profiles.get a = some o → o.imLimitExtra + g < 2 ^ 64
  | .prolongIm a => ∀ o v, s.profiles.get a = some o → o.extraImUntil = some v → s.now < v + e.month
  | .block e' _ now => s.now ≤ now ∧ ∀ x, (e' x).text = X ∧ now < s.now + (e' x).month
  | _ => True

theorem Op.Steady.text {X : TextOps} {e : Env} {s : State} {op : Op} (h : op.Steady X e s) : op.Text X := by
  cases op <;> first | trivial | exact fun x => (h.2 x).1

theorem tx_same {s : State} {α : Type} {m : M State α} (h : PresI m) : ImSame s (M.tx m s) := by
  rcases M.tx_cases m s with ⟨x, hx⟩ | ⟨-, hx⟩
  · have := h s
    rw [hx] at this; exact this
  · rw [hx]; exact .refl s

theorem tx_kept {D : Int → Prop} {s : State} {α : Type} {m : M State α} (h : ∀ x t, m s = (.ok x, t) → Kept D t) (hk : Kept D s) :
    Kept D (M.tx m s) := by
  rcases M.tx_cases m s with ⟨x, hx⟩ | ⟨-, hx⟩
  · exact h x _ hx
  · rw [hx]; exact hk

theorem run_kept {X : TextOps} {e : Env} {op : Op} {s : State} (hs : op.Steady X e s) (hi : Ids X s) (hc : Clear X s)
    (hk : Kept (fun _ => False) s) : Kept (fun _ => False) (op.run e s) := by
  cases op with
  | createAccount c a r p =>
    refine tx_kept (fun x t h => createAccount_kept (fun v hr => ?_) h hi hk) hk
    rw [runs_im] at hr
    cases p with
    | none => exact hr.1 rfl
    | some q =>
      have := hs q v rfl hr.1 hr.2.1
      omega
  | updateProfile a us => exact tx_kept (fun x t h => updateProfile_kept h hk) hk
  | setStorageCurrent x a v => exact hk.same (tx_same (setStorageCurrent_presI x a v))
  | setVpnCurrent x a v => exact hk.same (tx_same (setVpnCurrent_presI x a v))
  | setRate x v =>
    refine tx_kept (fun y t h => ?_) hk
    unfold setRate at h
    rw [M.get_bind_ok, M.errIf_bind_ok, M.panicIf_bind_ok, M.modify_apply, Prod.mk.injEq] at h
    rw [← h.2.2.2]
    exact hk.blind rfl (fun _ => rfl) fun _ _ => rfl
  | setParams p =>
    refine tx_kept (fun y t h => ?_) hk
    unfold setParams at h
    rw [M.get_bind_ok, M.panicIf_bind_ok, M.modify_apply, Prod.mk.injEq] at h
    rw [← h.2.2]
    exact hk.blind rfl (fun _ => rfl) fun _ _ => rfl
  | payTariff a g => exact hk.same (tx_same (payTariff_presI e a g false))
  | buyStorage a g => exact hk.same (tx_same (buyStorage_presI e a g))
  | buyIm a g => exact tx_kept (fun x t h => buyIm_kept hs.1 hs.2 h hk) hk
  | buyVpn a g => exact hk.same (tx_same (buyVpn_presI e a g))
  | giveStorageUp a g => exact hk.same (tx_same (giveStorageUp_presI e a g))
  | giveImUp a g => exact tx_kept (fun x t h => giveImUp_kept h hk) hk
  | prolongIm a => exact tx_kept (fun x t h => prolongIm_kept hs h hk) hk
  | foreign f => exact hk.same (foreign_im f s)
  | block e' f now => exact block_kept (fun x => (hs.2 x).1) (fun x => (hs.2 x).2) hs.1 hi hc hk

/-- Executions of steady operations, from a chain without profiles and messenger tasks. -/
inductive SteadyReachable (X : TextOps) : State → Prop where
  | start {s : State} (h : Start s) (ht : ∀ x, Pending s.sched x → x.handler ≠ refreshImHook) (hi : Schedule.Inv s.sched) : SteadyReachable X s
  | step {s : State} (e : Env) (he : e.text = X) (op : Op) (hop : op.Steady X e s) (h : SteadyReachable X s) : SteadyReachable X (op.run e s)

theorem SteadyReachable.text {X : TextOps} {s : State} (h : SteadyReachable X s) : TextReachable X s := by
  induction h with
  | start h => exact .start h
  | step e he op hop _ ih => exact .step e he op hop.text ih

theorem SteadyReachable.kept {X : TextOps} (hX : TextOk X) {s : State} (h : SteadyReachable X s) : Kept (fun _ => False) s := by
  induction h with
  | @start s h ht hi =>
    have h0 : ∀ T, ims s.sched T = [] := by
      intro T
      rw [List.eq_nil_iff_forall_not_mem]
      intro d hd
      obtain ⟨x, hp, -, hx, -⟩ := (mem_ims hi).1 hd
      exact ht x hp hx
    refine ⟨fun T _ d hd => ?_, fun T _ => ?_, fun a T _ hr => ?_⟩
    · rw [h0] at hd; cases hd
    · rw [h0]; exact List.nodup_nil
    · obtain ⟨-, l, b, -, hm⟩ := hr
      unfold imOf at hm
      rw [h.profiles, KV.get_empty] at hm
      cases hm
  | step e he op hop h ih => exact run_kept hop (h.text.reachable.ids hX) h.text.clear ih

/-- **C61.** While extra messenger storage runs, exactly one task for it is pending, at the time of its end; there are no other messenger
tasks.  Missing: executions with operations that are not steady (see the cases below). -/
theorem C61_scheduled_partial {X : TextOps} (hX : TextOk X) {s : State} (h : SteadyReachable X s) :
    (∀ a o v, s.profiles.get a = some o → o.imLimitExtra ≠ 0 → o.extraImUntil = some v → s.now < v →
      ((s.sched.store.get v).getD []).countP (fun x => x.handler = refreshImHook ∧ x.data = [a]) = 1) ∧
    (∀ T l x, s.sched.store.get T = some l → x ∈ l → x.handler = refreshImHook →
      ∃ a o, x.data = [a] ∧ s.profiles.get a = some o ∧ o.imLimitExtra ≠ 0 ∧ o.extraImUntil = some T ∧ s.now < T) := by
  have hk := h.kept hX
  constructor
  · intro a o v ho hl hu hv
    have hm := hk.there a v id (by rw [imOf_get ho, runs_im]; exact ⟨hl, hu, hv⟩)
    have hc : (ims s.sched v).count [a] = 1 := le_antisymm (hk.count id a) (List.count_pos_iff.2 hm)
    unfold ims at hc
    rw [List.count, List.countP_map, List.countP_filter] at hc
    rw [← hc]
    congr 1
    funext x
    simp only [Bool.decide_and, Function.comp_apply]
    rw [Bool.and_comm, Bool.eq_iff_iff]
    simp
  · intro T l x hl hx hh
    have : x.data ∈ ims s.sched T := by
      unfold ims
      rw [hl, Option.getD_some, List.mem_map]
      exact ⟨x, List.mem_filter.2 ⟨hx, by simpa using hh⟩, rfl⟩
    obtain ⟨a, ha, hr⟩ := hk.own T id _ this
    rcases ho : s.profiles.get a with _ | o
    · obtain ⟨-, l, b, -, hm⟩ := hr
      unfold imOf at hm
      rw [ho] at hm; cases hm
    · rw [imOf_get ho, runs_im] at hr
      exact ⟨a, o, ha, ho, hr⟩

/-! ### Cases -/

/-- The account of C59 with its 5 GB, half a month later and after the end of the month. -/
theorem messenger_steady : SteadyReachable ascii (Op.runAll exampleEnv (messenger ++ [halfMonth, monthEnd]) exampleState) := by
  have h0 : SteadyReachable ascii exampleState := by
    refine .start exampleStart (fun x hx => ?_) ?_
    · obtain ⟨l, hl, -⟩ := hx
      simp [exampleState, KV.get_empty] at hl
    · exact Schedule.Inv.empty
  have h1 := SteadyReachable.step exampleEnv rfl (.createAccount 5 7 5 none) (by intro q v hq; cases hq) h0
  have h2 := SteadyReachable.step exampleEnv rfl (.payTariff 7 0) trivial h1
  have h3 := SteadyReachable.step exampleEnv rfl (.buyIm 7 5) (by
    refine ⟨by decide, fun o ho => ?_⟩
    have : (((Op.payTariff 7 0).run exampleEnv ((Op.createAccount 5 7 5 none).run exampleEnv exampleState)).profiles.get 7).map (·.imLimitExtra) = some 0 := by
      decide +kernel
    rw [ho] at this
    simp only [Option.map_some, Option.some.injEq] at this
    omega) h2
  have h4 := SteadyReachable.step exampleEnv rfl (.updateProfile 7 [.autoPayIm true]) trivial h3
  have hb : ∀ t : State, t.now = 1000 → halfMonth.Steady ascii exampleEnv t := by
    intro t ht
    refine ⟨by rw [ht]; decide, fun x => ⟨rfl, ?_⟩⟩
    rw [ht]; show (_ : Int) < _ + exampleMonth; decide
  have h5 := SteadyReachable.step exampleEnv rfl halfMonth (hb _ (by decide +kernel)) h4
  have hb' : ∀ t : State, t.now = 1000 + exampleMonth / 2 → monthEnd.Steady ascii exampleEnv t := by
    intro t ht
    refine ⟨by rw [ht]; decide, fun x => ⟨rfl, ?_⟩⟩
    rw [ht]; show (_ : Int) < _ + exampleMonth; decide
  exact SteadyReachable.step exampleEnv rfl monthEnd (hb' _ (by decide +kernel)) h5

-- the task has been moved by a month
example : ims (Op.runAll exampleEnv (messenger ++ [halfMonth]) exampleState).sched (1000 + exampleMonth) = [[7]] ∧
    ims (Op.runAll exampleEnv (messenger ++ [halfMonth, monthEnd]) exampleState).sched (1000 + exampleMonth) = [] ∧
    ims (Op.runAll exampleEnv (messenger ++ [halfMonth, monthEnd]) exampleState).sched (1000 + 2 * exampleMonth) = [[7]] := by
  decide +kernel

/-- **C61 is false as stated**: the message that creates an account may bring messenger storage along, which nobody paid for and no task
ends. -/
theorem C61_free_storage : ∃ s, Reachable ascii s ∧ (s.profiles.get 7).map Profile.im = some (5, some 4000000000000000000, false) ∧
    s.now < 4000000000000000000 ∧ (∀ x, ¬ Pending s.sched x) ∧ (balance s.bank 7).main = 1000000000000 := by
  refine ⟨_, runAll_reachable [.createAccount 5 7 5 (some { imLimitExtra := 5, extraImUntil := some 4000000000000000000 })] (.start exampleStart), ?_, ?_, ?_, ?_⟩
  · decide +kernel
  · decide +kernel
  · rintro x ⟨l, hl, -⟩
    have : (Op.runAll exampleEnv [.createAccount 5 7 5 (some { imLimitExtra := 5, extraImUntil := some 4000000000000000000 })] exampleState).sched.store.entries = [] := by
      decide +kernel
    have hm := KV.mem_entries.2 hl
    rw [this] at hm; cases hm
  · decide +kernel

/-- An account created with storage that ended long ago, prolonged into the past, then bought anew. -/
def longAgo : List Op := [.block (fun _ => exampleEnv) (fun _ => exampleForeign) (3 * exampleMonth),
  .createAccount 5 7 5 (some { imLimitExtra := 5, extraImUntil := some 5 }), .prolongIm 7, .buyIm 7 5]

/-- **And such storage may end at once**: a prolongation of what ended more than a month ago leaves a task in the past, and at the next
block this task ends storage just paid for. -/
theorem C61_bought_and_lost : ∃ s, Reachable ascii s ∧
    (s.profiles.get 7).map Profile.im = some (5, some (3 * exampleMonth + exampleMonth), false) ∧ s.now = 3 * exampleMonth ∧
    ∃ t, t = (Op.block (fun _ => exampleEnv) (fun _ => exampleForeign) (3 * exampleMonth + 1)).run exampleEnv s ∧
      (t.profiles.get 7).map Profile.im = some (0, none, false) := by
  refine ⟨_, runAll_reachable longAgo (.start exampleStart), ?_, ?_, _, rfl, ?_⟩ <;> decide +kernel

end Verif.Profile
