import Verif.Proofs.Deliver
import Verif.Props.Host
/-!
Property C95: a client that goes on reading gets all its replies.
-/
set_option linter.unusedSectionVars false
set_option linter.unusedSimpArgs false
set_option linter.unusedVariables false
namespace Metis.Props.DeliverP
open Metis Spec Metis.Wire Metis.Deliver
open _root_.Metis.Net (pending)
variable {hash : Bytes → Nat} {n : Nat} {pw : Bytes} {aof : Bool}

theorem told_forever {ev : Nat → Ev} {w : Nat → Wire} (f : Forever hash n pw aof ev w) (i : Nat) : ∃ evs h, Told hash n pw aof evs (w i) h := by
  induction i with
  | zero =>
    obtain ⟨evs, he, hr⟩ := f.start
    obtain ⟨h, t, _⟩ := told_run evs [] told_init he hr ⟨[], rfl, .nil⟩
    exact ⟨_, h, t⟩
  | succ i ih =>
    obtain ⟨evs, h, t⟩ := ih
    obtain ⟨l, _, t'⟩ := told_step t (f.env i) (f.step i)
    exact ⟨_, _, t'⟩

/-- **C95**: a connection stays open from the moment `i` on, and whenever something is pending for it, at some later time its socket takes a byte. Then there is a later moment
at which everything that was said up to `i` has been sent, in its place. -/
theorem C95_delivered {ev : Nat → Ev} {w : Nat → Wire} (f : Forever hash n pw aof ev w) {fd i : Nat} {b : Bytes}
    (hopen : ∀ j, i ≤ j → (w j).net.clients fd ≠ none)
    (hfair : ∀ j o, i ≤ j → (w j).net.clients fd = some o → pending o ≠ [] → ∃ k, j ≤ k ∧ Takes fd (ev k))
    (hb : toldAt (w i) fd = some b) : ∃ j r, i ≤ j ∧ (w j).net.wire fd = b ++ r := by
  have ok : ∀ j, WOk hash (w j) := fun j => by obtain ⟨evs, h, t⟩ := told_forever f j; exact wok_of_told t
  unfold toldAt at hb
  obtain ⟨o, ho, rfl⟩ := Option.map_eq_some_iff.1 hb
  -- what has been sent never shrinks
  have mono : ∀ d j t, i ≤ j → Since fd ((w i).net.wire fd) (pending o) (w j) t → ∃ u, Since fd ((w i).net.wire fd) (pending o) (w (j + d)) (t ++ u) := by
    intro d
    induction d with
    | zero => intro j t _ h; exact ⟨[], by simpa using h⟩
    | succ d ih =>
      intro j t hj h
      obtain ⟨u, h1⟩ := ih j t hj h
      obtain ⟨v, h2, _⟩ := since_step (ok (j + d)) (f.env _) (f.step (j + d)) (hopen (j + d + 1) (by omega)) h1
      exact ⟨u ++ v, by rw [← List.append_assoc]; exact h2⟩
  have key : ∀ m, m ≤ (pending o).length → ∃ j t, i ≤ j ∧ Since fd ((w i).net.wire fd) (pending o) (w j) t ∧ m ≤ t.length := by
    intro m
    induction m with
    | zero => intro _; exact ⟨i, [], Nat.le_refl _, since_start ho, Nat.zero_le _⟩
    | succ m ih =>
      intro hm
      obtain ⟨j, t, hj, h, hl⟩ := ih (by omega)
      by_cases hlt : t.length < (pending o).length
      · obtain ⟨o', new, e1, e2⟩ := h.rest
        have hp : pending o' ≠ [] := by
          intro hp
          rw [hp, List.append_nil] at e2
          have := congrArg List.length e2
          simp at this
          omega
        obtain ⟨k, hk, ht⟩ := hfair j o' hj e1 hp
        obtain ⟨u, h1⟩ := mono (k - j) j t hj h
        rw [show j + (k - j) = k by omega] at h1
        by_cases hlt' : (t ++ u).length < (pending o).length
        · obtain ⟨v, h2, h3⟩ := since_step (ok k) (f.env k) (f.step k) (hopen (k + 1) (by omega)) h1
          have := List.length_pos_iff.2 (h3 ht hlt')
          exact ⟨k + 1, _, by omega, h2, by rw [List.length_append, List.length_append]; omega⟩
        · exact ⟨k, _, by omega, h1, by omega⟩
      · exact ⟨j, t, hj, h, by omega⟩
  obtain ⟨j, t, hj, h, hl⟩ := key _ (Nat.le_refl _)
  obtain ⟨r, hr⟩ := since_done h hl
  exact ⟨j, r, hj, hr⟩

/-- **C95, with the reference**: if moreover the commands so far stayed within the limits of C93, all that the small reference server has said by then arrives, byte for byte. -/
theorem C95_reference {ev : Nat → Ev} {w : Nat → Wire} (f : Forever hash n pw aof ev w) {evs : List Ev} (he : EvsOk hash evs) (hrd : ∀ ev ∈ evs, Read ev)
    (hs : Ref.Host.Safe n pw .start evs) (h : run (init n pw aof) evs = some (w 0)) {fd : Nat} (hopen : ∀ j, (w j).net.clients fd ≠ none)
    (hfair : ∀ j o, (w j).net.clients fd = some o → pending o ≠ [] → ∃ k, j ≤ k ∧ Takes fd (ev k)) :
    ∃ H l, Ref.Hosts n pw .start evs H ∧ H.line fd = some l ∧ ∃ j r, (w j).net.wire fd = l.out ++ r := by
  obtain ⟨H, h1, h2⟩ := HostP.C93_partial he hrd hs h
  obtain ⟨o, ho⟩ := Option.ne_none_iff_exists'.1 (hopen 0)
  have hf := h2 fd
  rw [ho, Option.map_some] at hf
  obtain ⟨l, hl, hb⟩ := Option.map_eq_some_iff.1 hf.symm
  obtain ⟨j, r, _, hj⟩ := C95_delivered f (i := 0) (fun j _ => hopen j) (fun j o _ => hfair j o) (b := l.out) (by simp [toldAt, ho, hb])
  exact ⟨H, l, h1, hl, j, r, hj⟩

/-- A socket that takes a byte can be written, and stays open. -/
theorem write_one {w : Wire} {fd : Nat} {o : Sender} (k : WOk hash w) (ho : w.net.clients fd = some o) :
    ∃ w', Wire.step w (.writable fd [.bytes 1]) = some w' ∧ w'.net.clients fd ≠ none := by
  have hs := Net.sendLoop_ok [.bytes 1] o.queue o.sent [] (k.net.on fd o ho).1
  have hf : ∀ b, Net.sendLoop [.bytes 1] o [] ≠ .failed b := by
    obtain ⟨q, m⟩ := o
    intro b
    cases q with
    | nil => unfold Net.sendLoop; exact (fun h => by cases h)
    | cons s q =>
      unfold Net.sendLoop
      by_cases hm : m < s.length
      · rw [if_pos hm]
        simp only
        by_cases hb : m + min 1 (s.length - m) = s.length
        · rw [if_pos hb]
          cases q with
          | nil => unfold Net.sendLoop; exact (fun h => by cases h)
          | cons s' q =>
            unfold Net.sendLoop
            by_cases hm' : 0 < s'.length
            · rw [if_pos hm']; exact (fun h => by cases h)
            · rw [if_neg hm']; exact (fun h => by cases h)
        · rw [if_neg hb]; exact (fun h => by cases h)
      · rw [if_neg hm]; exact (fun h => by cases h)
  simp only [Wire.step, Net.step, Net.writable, ho, Option.bind_eq_bind, Option.bind_some]
  generalize Net.sendLoop [.bytes 1] o [] = out at hs hf
  cases out with
  | failed b => exact absurd rfl (hf b)
  | spin => exact hs.elim
  | done o' b => by_cases hq : o'.queue = [] <;> simp [hq]
  | again o' b => simp

/-- **C95, it can happen**: from every moment at which a connection is open, a history without end goes on in which it stays open and its socket always takes bytes: the hypotheses
of the theorem can be met wherever they are to be met. -/
theorem C95_possible {evs : List Ev} {w0 : Wire} {fd : Nat} {o : Sender} (he : EvsOk hash evs) (h : run (init n pw aof) evs = some w0) (ho : w0.net.clients fd = some o) :
    ∃ ev w, Forever hash n pw aof ev w ∧ w 0 = w0 ∧ (∀ j, (w j).net.clients fd ≠ none) ∧ ∀ j, Takes fd (ev j) := by
  have hev : EvsOk hash [.writable fd [.bytes 1]] := fun x hx => by rw [List.mem_singleton.1 hx]; trivial
  obtain ⟨hh, ht, _⟩ := told_run evs [] told_init he h ⟨[], rfl, .nil⟩
  let w : Nat → Wire := fun i => Nat.rec w0 (fun _ w => (Wire.step w (.writable fd [.bytes 1])).getD w) i
  have key : ∀ i, (∃ evs hh, Told hash n pw aof evs (w i) hh) ∧ (w i).net.clients fd ≠ none ∧ Wire.step (w i) (.writable fd [.bytes 1]) = some (w (i + 1)) := by
    intro i
    induction i with
    | zero =>
      obtain ⟨w', h1, _⟩ := write_one (wok_of_told ht) ho
      refine ⟨⟨_, _, ht⟩, (fun e => by rw [show w 0 = w0 from rfl, ho] at e; cases e), ?_⟩
      show Wire.step w0 _ = some ((Wire.step w0 _).getD w0)
      rw [h1]; rfl
    | succ i ih =>
      obtain ⟨⟨evs1, hh1, t1⟩, h2, h3⟩ := ih
      obtain ⟨l, _, t2⟩ := told_step t1 hev h3
      obtain ⟨o1, ho1⟩ := Option.ne_none_iff_exists'.1 h2
      obtain ⟨w', h4, h5⟩ := write_one (wok_of_told t1) ho1
      rw [h3] at h4
      cases h4
      obtain ⟨o2, ho2⟩ := Option.ne_none_iff_exists'.1 h5
      obtain ⟨w', h6, _⟩ := write_one (wok_of_told t2) ho2
      refine ⟨⟨_, _, t2⟩, h5, ?_⟩
      show Wire.step (w (i + 1)) _ = some ((Wire.step (w (i + 1)) _).getD (w (i + 1)))
      rw [h6]; rfl
  exact ⟨fun _ => .writable fd [.bytes 1], w, ⟨⟨evs, he, h⟩, fun i => (key i).2.2, fun _ => hev⟩, rfl, fun j => (key j).2.1, fun _ => ⟨rfl, Nat.one_pos⟩⟩

theorem takes_cons (fd : Nat) (ev : Ev) (evs : List Ev) : (Takes fd ev ∧ takes fd (ev :: evs) = 1 + takes fd evs) ∨ takes fd (ev :: evs) = takes fd evs := by
  cases ev with
  | accept x => exact .inr rfl
  | readable x g e => exact .inr rfl
  | cron e => exact .inr rfl
  | writable x rs =>
    cases rs with
    | nil => exact .inr rfl
    | cons r rs =>
      cases r with
      | again => exact .inr rfl
      | fail => exact .inr rfl
      | bytes k =>
        by_cases h : x = fd ∧ 0 < k
        · exact .inl ⟨h, by simp [takes, h]⟩
        · exact .inr (by simp only [takes, if_neg h]; omega)

theorem since_run : ∀ (evs : List Ev) {evs0 : List Ev} {w w' : Wire} {h : List (Event × List Bytes)} {fd : Nat} {B P t : Bytes}, Told hash n pw aof evs0 w h → EvsOk hash evs →
    run w evs = some w' → Stays fd w evs → Since fd B P w t → ∃ u, Since fd B P w' u ∧ min (t.length + takes fd evs) P.length ≤ u.length
  | [], evs0, w, w', h, fd, B, P, t, ht, he, hr, hk, hs => by
    cases hr
    exact ⟨t, hs, by simp only [takes]; omega⟩
  | ev :: evs, evs0, w, w', h, fd, B, P, t, ht, he, hr, hk, hs => by
    simp only [run, Option.bind_eq_bind, Option.bind_eq_some_iff] at hr
    obtain ⟨w1, h1, h2⟩ := hr
    have he1 : EvsOk hash [ev] := fun x hx => he x (by rw [List.mem_singleton.1 hx]; exact List.mem_cons_self)
    obtain ⟨l, _, ht'⟩ := told_step ht he1 h1
    have hk1 : w1.net.clients fd ≠ none := hk [ev] evs w1 rfl (by simp [run, h1])
    obtain ⟨u, hu, hu2⟩ := since_step (wok_of_told ht) he1 h1 hk1 hs
    obtain ⟨v, hv, hl⟩ := since_run evs ht' (fun x hx => he x (List.mem_cons_of_mem _ hx)) h2
      (fun pre post w'' e hr => hk (ev :: pre) post w'' (by rw [e]; rfl) (by simp [run, h1, hr])) hu
    refine ⟨v, hv, ?_⟩
    rw [List.length_append] at hl
    rcases takes_cons fd ev evs with ⟨ht1, e⟩ | e
    · by_cases hlt : t.length < P.length
      · have := List.length_pos_iff.2 (hu2 ht1 hlt)
        omega
      · omega
    · omega

/-- **C95, how soon**: it takes no more writes than there are bytes. Whatever else happens in between, after as many writes that take a byte as bytes
were pending, everything said until then has been sent. -/
theorem C95_bound {evs evs' : List Ev} {w w' : Wire} {fd : Nat} {o : Sender} (he : EvsOk hash (evs ++ evs')) (h : run (init n pw aof) evs = some w)
    (h' : run w evs' = some w') (hk : Stays fd w evs') (ho : w.net.clients fd = some o) (hn : (pending o).length ≤ takes fd evs') :
    ∃ r, w'.net.wire fd = w.net.wire fd ++ pending o ++ r := by
  obtain ⟨hh, ht, _⟩ := told_run evs [] told_init (fun x hx => he x (List.mem_append_left _ hx)) h ⟨[], rfl, .nil⟩
  obtain ⟨u, h1, h2⟩ := since_run evs' ht (fun x hx => he x (List.mem_append_right _ hx)) h' hk (since_start ho)
  exact since_done h1 (by simp only [List.length_nil] at h2; omega)

/-- **C95, the loop knows**: the writable event of a connection is registered if and only if something is pending, so that the loop calls back when the socket can be written,
and only then. -/
theorem C95_registered {evs : List Ev} {w : Wire} {fd : Nat} {o : Sender} (he : EvsOk hash evs) (h : run (init n pw aof) evs = some w) (ho : w.net.clients fd = some o) :
    (w.net.loop.files (Ae.key fd .writable)).isSome = true ↔ pending o ≠ [] := by
  obtain ⟨hh, ht, _⟩ := told_run evs [] told_init he h ⟨[], rfl, .nil⟩
  obtain ⟨k1, _, k3⟩ := (wok_of_told ht).net.on fd o ho
  rw [Ne, pending_nil k1]
  exact k3

/-- A client asks for PING; the answer is pending. -/
def asked : List Ev := [.accept 5, .readable 5 (.data b!"*1\r\n$4\r\nping\r\n") (demo 0)]

theorem asked_ok : EvsOk (demo 0).hash asked := by
  intro ev hev
  simp only [asked, List.mem_cons, List.not_mem_nil, or_false] at hev
  rcases hev with rfl | rfl
  · trivial
  · exact HostP.envok_demo 0

theorem asked_runs : ∃ w o, run (init 1 [] false) asked = some w ∧ w.net.clients 5 = some o ∧ w.net.wire 5 = [] ∧ pending o = b!"+PONG\r\n" := by
  have hr : (run (init 1 [] false) asked).map (fun w => (w.net.clients 5).map (fun o => (w.net.wire 5, pending o))) = some (some ([], b!"+PONG\r\n")) := by decide
  obtain ⟨w, h1, h2⟩ := Option.map_eq_some_iff.1 hr
  obtain ⟨o, h3, h4⟩ := Option.map_eq_some_iff.1 h2
  simp only [Prod.mk.injEq] at h4
  exact ⟨w, o, h1, h3, h4.1, h4.2⟩

/-- The hypotheses of `C95_delivered` hold of it, and it is as the theorem says. -/
example : ∃ ev w, Forever (demo 0).hash 1 [] false ev w ∧ toldAt (w 0) 5 = some b!"+PONG\r\n" ∧ (w 0).net.wire 5 = [] ∧ (∀ j, (w j).net.clients 5 ≠ none) ∧
    (∀ j, Takes 5 (ev j)) ∧ ∃ j r, (w j).net.wire 5 = b!"+PONG\r\n" ++ r := by
  obtain ⟨w0, o, h1, h2, h3, h4⟩ := asked_runs
  obtain ⟨ev, w, f, e, k1, k2⟩ := C95_possible asked_ok h1 h2
  have hb : toldAt (w 0) 5 = some b!"+PONG\r\n" := by rw [e]; simp [toldAt, h2, h3, h4]
  obtain ⟨j, r, _, hj⟩ := C95_delivered f (fun j _ => k1 j) (fun j o _ _ _ => ⟨j, Nat.le_refl _, k2 j⟩) hb
  exact ⟨ev, w, f, hb, by rw [e, h3], k1, k2, j, r, hj⟩

/-- The hypotheses of `C95_reference`, for two replies of a set. -/
example : ∃ ev w H l, Forever (demo 0).hash 1 [] false ev w ∧ Ref.Hosts 1 [] .start HostP.short H ∧ H.line 5 = some l ∧ (w 0).net.wire 5 = [] ∧
    ∃ j r, (w j).net.wire 5 = l.out ++ r := by
  have hr : (run (init 1 [] false) HostP.short).map (fun w => (w.net.clients 5).map (fun o => w.net.wire 5)) = some (some []) := by decide
  obtain ⟨w0, h1, h2⟩ := Option.map_eq_some_iff.1 hr
  obtain ⟨o, h3, h4⟩ := Option.map_eq_some_iff.1 h2
  have he : EvsOk (demo 0).hash HostP.short := by
    intro ev hev
    simp only [HostP.short, List.mem_cons, List.not_mem_nil, or_false] at hev
    rcases hev with rfl | rfl | rfl | rfl
    · trivial
    all_goals exact HostP.envok_demo 0
  have hrd : ∀ ev ∈ HostP.short, Read ev := by
    intro ev hev
    simp only [HostP.short, List.mem_cons, List.not_mem_nil, or_false] at hev
    rcases hev with rfl | rfl | rfl | rfl <;> first | trivial | (show _ ≠ _; decide)
  obtain ⟨ev, w, f, e, k1, k2⟩ := C95_possible he h1 h3
  obtain ⟨H, l, g1, g2, g3⟩ := C95_reference f he hrd HostP.short_safe (e ▸ h1) k1 (fun j o _ _ => ⟨j, Nat.le_refl _, k2 j⟩)
  exact ⟨ev, w, H, l, f, g1, g2, by rw [e, h4], g3⟩

/-- The hypotheses of `C95_bound`: seven bytes are pending, and there are seven writes. -/
example : ∃ w w' o, run (init 1 [] false) asked = some w ∧ run w (List.replicate 7 (.writable 5 [.bytes 1])) = some w' ∧ Stays 5 w (List.replicate 7 (.writable 5 [.bytes 1])) ∧
    w.net.clients 5 = some o ∧ (pending o).length ≤ takes 5 (List.replicate 7 (.writable 5 [.bytes 1])) := by
  obtain ⟨w0, o, h1, h2, h3, h4⟩ := asked_runs
  obtain ⟨hh, ht, _⟩ := told_run asked [] told_init asked_ok h1 ⟨[], rfl, .nil⟩
  have hev : EvsOk (demo 0).hash [.writable 5 [.bytes 1]] := fun x hx => by rw [List.mem_singleton.1 hx]; trivial
  have key : ∀ (k : Nat) (evs : List Ev) (hh : List (Event × List Bytes)) (w : Wire), Told (demo 0).hash 1 [] false evs w hh → w.net.clients 5 ≠ none →
      ∃ w', run w (List.replicate k (.writable 5 [.bytes 1])) = some w' ∧ Stays 5 w (List.replicate k (.writable 5 [.bytes 1])) := by
    intro k
    induction k with
    | zero =>
      intro evs hh w t hw
      refine ⟨w, rfl, fun pre post w' e hr => ?_⟩
      have : pre = [] := (List.append_eq_nil_iff.1 e.symm).1
      subst this
      cases hr
      exact hw
    | succ k ih =>
      intro evs hh w t hw
      obtain ⟨o, ho⟩ := Option.ne_none_iff_exists'.1 hw
      obtain ⟨w1, e1, e2⟩ := write_one (wok_of_told t) ho
      obtain ⟨l, _, t'⟩ := told_step t hev e1
      obtain ⟨w', e3, e4⟩ := ih _ _ w1 t' e2
      refine ⟨w', by simp [List.replicate_succ, run, e1, e3], fun pre post w'' e hr => ?_⟩
      cases pre with
      | nil => cases hr; exact hw
      | cons x pre =>
        rw [List.replicate_succ, List.cons_append, List.cons.injEq] at e
        obtain ⟨rfl, e⟩ := e
        simp only [run, Option.bind_eq_bind, e1, Option.bind_some] at hr
        exact e4 pre post w'' e hr
  obtain ⟨w', e1, e2⟩ := key 7 _ _ w0 ht (by rw [h2]; exact (fun e => by cases e))
  exact ⟨w0, w', o, h1, e1, e2, h2, by rw [h4]; decide⟩

end Metis.Props.DeliverP
