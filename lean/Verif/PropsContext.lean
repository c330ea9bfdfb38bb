import Verif.Context
import Verif.PropsStream

/-!
# C54: contexts

A `Script` is a hand-written pair of implementations of `Readable` and `Writable` which looks at the context and changes it.
`Spells en p c ms c'` says, independently of readers and writers, that `p` in the context `c` consists of the values `ms`, each in the byte
order of the context at that point, and leaves the context `c'`.
-/

namespace Verif

/-- The values of which a script consists, with their byte orders, and the context afterwards. -/
inductive Spells {γ : Type} (en : γ → Endian) : Script γ → γ → List Message → γ → Prop where
  | stop (c : γ) : Spells en .stop c [] c
  | item {t : Ty} {next : Val → Script γ} {c c' : γ} {ms : List Message} (m : Message) :
      m.e = en c → m.t = t → Spells en (next m.v) c ms c' → Spells en (.item t next) c (m :: ms) c'
  | look {next : γ → Script γ} {c c' : γ} {ms : List Message} : Spells en (next c) c ms c' → Spells en (.look next) c ms c'
  | update {f : γ → γ} {next : Script γ} {c c' : γ} {ms : List Message} :
      Spells en next (f c) ms c' → Spells en (.update f next) c ms c'

/-- **C54**, writing: a working stream receives the encodings of the values one after another, each in the byte order of the context
at that point.  For all types and values. -/
theorem C54_written {γ : Type} (T : Target) (en : γ → Endian) (p : Script γ) (vs : List Val) (c c' : γ) (s s' : Sink) (hs : s.Works)
    (h : p.writeStream T en vs c s = (.ok (), c', s')) :
    ∃ ms, Spells en p c ms c' ∧ vs = ms.map Message.v ∧ s'.got = s.got ++ messageBytes ms ∧
      ∀ m ∈ ms, ∀ w : Sink, w.Works → ∃ w', writeToStream T m.e m.t m.v w = (.ok (), w') ∧ w'.got = w.got ++ m.bs := by
  unfold Script.writeStream at h
  induction p generalizing vs c s with
  | stop =>
    cases vs with
    | nil =>
      simp only [Script.write, Prod.mk.injEq] at h
      obtain ⟨_, rfl, rfl⟩ := h
      exact ⟨[], .stop _, rfl, by simp [messageBytes], by simp⟩
    | cons v vs => simp [Script.write] at h
  | item t next ih =>
    cases vs with
    | nil => simp [Script.write] at h
    | cons v vs =>
      have h1 := works_run (T := T) (e := en c) hs (encode T (en c) t Cx.std v)
      have h2 := (run_stream (h := T.toHost) (e := en c) (encode T (en c) t Cx.std v) s).2.2
      simp only [Script.write, CtxWriter.stream] at h
      generalize hr : (encode T (en c) t Cx.std v).run (writingCollector T.toHost (en c)) s = r at h h1 h2
      obtain ⟨r, s1⟩ := r
      cases r with
      | error er => simp at h
      | ok u =>
        simp only at h h1 h2
        obtain ⟨ms, g1, g2, g3, g4⟩ := ih v vs c s1 (fun ev hev => hs ev (h2 ev hev)) h
        refine ⟨⟨en c, t, v, ((encode T (en c) t Cx.std v).out T.toHost (en c)).1⟩ :: ms, .item _ rfl rfl g1, by simp [g2], ?_, ?_⟩
        · rw [messageBytes_cons, g3, h1.2, List.append_assoc]
        · intro m hm w hw
          rcases List.mem_cons.1 hm with rfl | hm
          · have h3 := works_run (T := T) (e := en c) hw (encode T (en c) t Cx.std v)
            exact ⟨_, Prod.ext (h3.1.trans h1.1.symm) rfl, h3.2⟩
          · exact g4 m hm w hw
  | look next ih =>
    simp only [Script.write, CtxWriter.stream, if_true] at h
    obtain ⟨ms, g1, g2⟩ := ih c vs c s hs h
    exact ⟨ms, .look g1, g2⟩
  | update f next ih =>
    simp only [Script.write, CtxWriter.stream, if_true] at h
    obtain ⟨ms, g1, g2⟩ := ih vs (f c) s hs h
    exact ⟨ms, .update g1, g2⟩

/-- **C54**, reading: any reader whose input begins with the encodings of these values returns them, and leaves the context as the
writer did.

Full claim: for all types and values.  Missing: the exceptions of C01. -/
theorem C54_read_partial {γ σ : Type} {T : Target} (hT : T.Ok) {en : γ → Endian} {R : ReaderOps σ} {Inv : σ → Prop} {pend : σ → Bytes}
    (L : Lawful R Inv pend) {p : Script γ} {c c' : γ} {ms : List Message} (hp : Spells en p c ms c')
    (hms : ∀ m ∈ ms, m.Ok T ∧ (noRefs m.t = true ∨ Borrows R Inv)) {s : σ} (hs : Inv s) {rest : Bytes}
    (hd : pend s = messageBytes ms ++ rest) (hf : Fits T (messageBytes ms ++ rest)) :
    ∃ s', p.read T en R c s = (.ok (ms.map Message.v), c', s') ∧ Inv s' ∧ pend s' = rest := by
  induction hp generalizing s with
  | stop c => exact ⟨s, rfl, hs, by simpa [messageBytes] using hd⟩
  | look _ ih => exact ih hms hs hd hf
  | update _ ih => exact ih hms hs hd hf
  | @item t next c c' ms m he ht _ ih =>
    obtain ⟨hm, hn⟩ := hms m List.mem_cons_self
    obtain ⟨junk, hw⟩ := hm.written
    rw [messageBytes_cons, List.append_assoc] at hd hf
    obtain ⟨s1, h1, h2, h3⟩ := C06_self_delimiting_reader_partial hT hm.layout hm.decl hm.regular hm.ty hm.canon hw L hs hd hm.ends hn hf
    obtain ⟨s2, h4, h5, h6⟩ := ih (fun m' hm' => hms m' (List.mem_cons_of_mem _ hm')) h2 h3 (by
      refine ⟨?_, ?_⟩
      · have := hf.mem; simp only [List.length_append] at this ⊢; omega
      · have := hf.fuel; simp only [List.length_append] at this ⊢; omega)
    refine ⟨s2, ?_, h5, h6⟩
    simp only [Script.read]
    rw [← he, ← ht, h1]
    simp only [h4, List.map_cons]

/-- **C54**: `read_with_length_from_buffer_copying_data_with_ctx_mut` returns what was written, its length, and in the caller's context the changes
made on the way. -/
theorem C54_read_buffer_partial {γ : Type} {T : Target} (hT : T.Ok) {en : γ → Endian} {p : Script γ} {c c' : γ} {ms : List Message}
    (hp : Spells en p c ms c') (hms : ∀ m ∈ ms, m.Ok T ∧ noRefs m.t = true) {base : Nat} {rest : Bytes}
    (hm : InMem T base (messageBytes ms ++ rest)) :
    p.readBuffer T en c base (messageBytes ms ++ rest) = ((.ok (ms.map Message.v), (messageBytes ms).length), c') := by
  obtain ⟨s', h1, h2, h3⟩ := C54_read_partial hT (copyingReader_at T.toHost base (messageBytes ms ++ rest)) hp
    (fun m h => ⟨(hms m h).1, .inl (hms m h).2⟩) (BufAt.init hm.top) (BufSt.init_pend _ _) hm.fits
  unfold Script.readBuffer
  rw [h1]
  simp only [h2.consumed.1, h3]
  simp

/-- Writing into a buffer with enough room. -/
theorem script_buffer {γ : Type} {T : Target} {en : γ → Endian} {p : Script γ} {c c' : γ} {ms : List Message} (hp : Spells en p c ms c')
    (hms : ∀ m ∈ ms, (encode T m.e m.t Cx.std m.v).out T.toHost m.e = (m.bs, .ok ())) (s : BufC)
    (hs : s.pos + (messageBytes ms).length ≤ s.buf.length) :
    p.write T (CtxWriter.buffer T.toHost en) (ms.map Message.v) c s = (.ok (), c',
      ⟨s.buf.take s.pos ++ messageBytes ms ++ s.buf.drop (s.pos + (messageBytes ms).length), s.pos + (messageBytes ms).length⟩) := by
  induction hp generalizing s with
  | stop c => simp [Script.write, messageBytes]
  | look _ ih => simp only [Script.write, CtxWriter.buffer, if_true]; exact ih hms s hs
  | update _ ih => simp only [Script.write, CtxWriter.buffer, if_true]; exact ih hms s hs
  | @item t next c c' ms m he ht _ ih =>
    have h1 := hms m List.mem_cons_self
    rw [messageBytes_cons, List.length_append] at hs
    have h2 := run_buffer (encode_room (T := T) (e := m.e) m.t Cx.std m.v) s (by rw [h1]; simp only; omega)
    rw [h1] at h2
    simp only at h2
    simp only [List.map_cons, Script.write]
    simp only [CtxWriter.buffer] at ih ⊢
    rw [← he, ← ht, h2]
    simp only
    have hlen : (s.buf.take s.pos ++ m.bs ++ s.buf.drop (s.pos + m.bs.length)).length = s.buf.length := by
      simp only [List.length_append, List.length_take, List.length_drop]; omega
    rw [ih (fun m' hm' => hms m' (List.mem_cons_of_mem _ hm')) _ (by rw [hlen]; simp only; omega)]
    simp only [messageBytes_cons, List.length_append, Prod.mk.injEq, true_and, BufC.mk.injEq, Nat.add_assoc, and_true]
    have hp : s.pos + m.bs.length = (s.buf.take s.pos ++ m.bs).length := by
      simp only [List.length_append, List.length_take]; omega
    rw [show List.take (s.pos + m.bs.length) (s.buf.take s.pos ++ m.bs ++ s.buf.drop (s.pos + m.bs.length)) = s.buf.take s.pos ++ m.bs from by
      rw [hp]; exact List.take_left]
    rw [show List.drop (s.pos + (m.bs.length + (messageBytes ms).length)) (s.buf.take s.pos ++ m.bs ++ s.buf.drop (s.pos + m.bs.length)) =
        s.buf.drop (s.pos + (m.bs.length + (messageBytes ms).length)) from by
      rw [← Nat.add_assoc, hp, List.drop_append, List.drop_drop]
      simp]
    simp [List.append_assoc]

/-- What a working stream receives is the output. -/
theorem out_of_stream {T : Target} {m : Message}
    (h : ∃ w', writeToStream T m.e m.t m.v ⟨[], []⟩ = (.ok (), w') ∧ w'.got = m.bs) :
    (encode T m.e m.t Cx.std m.v).out T.toHost m.e = (m.bs, .ok ()) := by
  obtain ⟨w', h1, h2⟩ := h
  have h3 := works_run (T := T) (e := m.e) (s := ⟨[], []⟩) (by intro ev h; cases h) (encode T m.e m.t Cx.std m.v)
  unfold writeToStream at h1
  rw [h1] at h3
  simp only [List.nil_append] at h3
  exact Prod.ext (h3.2.symm.trans h2) h3.1.symm

/-- **C54**: an implementation which uses the context and defines `bytes_needed` correctly can be written with `write_to_vec_with_ctx_mut`: the result is the
encodings one after another, and the caller's context is changed.  For all types and values. -/
theorem C54_own_size {γ : Type} {T : Target} {en : γ → Endian} {p : Script γ} {c c' : γ} {ms : List Message} (hp : Spells en p c ms c')
    (hms : ∀ m ∈ ms, ∃ w', writeToStream T m.e m.t m.v ⟨[], []⟩ = (.ok (), w') ∧ w'.got = m.bs)
    {own : List Val → Except Err Nat} (ho : own (ms.map Message.v) = .ok (messageBytes ms).length)
    (hmax : (messageBytes ms).length ≤ T.isizeMax) (junk : Nat → UInt8) :
    p.writeVec T en (some own) (ms.map Message.v) c junk = (.ok (messageBytes ms), c') := by
  unfold Script.writeVec Script.bytesNeeded
  simp only [ho]
  rw [if_neg (by omega), script_buffer hp (fun m hm => out_of_stream (hms m hm)) _ (by simp)]
  simp

/-- The script looks at the context or changes it while processing these values. -/
inductive Touches {γ : Type} : Script γ → List Val → Prop where
  | look (next : γ → Script γ) (vs : List Val) : Touches (.look next) vs
  | update (f : γ → γ) (next : Script γ) (vs : List Val) : Touches (.update f next) vs
  | item (t : Ty) (next : Val → Script γ) (v : Val) (vs : List Val) : Touches (next v) vs → Touches (.item t next) (v :: vs)

/-- **C54 is false** for `write_to_vec` (and `write_to_buffer`) with the default `bytes_needed`: an implementation which looks at the context always
fails.  For all types and values. -/
theorem C54_false_vec {γ : Type} (T : Target) (en : γ → Endian) {p : Script γ} {vs : List Val} (h : Touches p vs) (c : γ)
    (junk : Nat → UInt8) : ∃ er, p.writeVec T en none vs c junk = (.error er, c) := by
  suffices H : ∀ n : Nat, ∃ er c' n', p.write T (CtxWriter.size T.toHost) vs c n = (.error er, c', n') by
    obtain ⟨er, c', n', h1⟩ := H 0
    refine ⟨er, ?_⟩
    unfold Script.writeVec Script.bytesNeeded
    rw [h1]
  induction h with
  | look next vs => exact fun n => ⟨_, _, _, by simp [Script.write, CtxWriter.size]; exact ⟨rfl, rfl, rfl⟩⟩
  | update f next vs => exact fun n => ⟨_, _, _, by simp [Script.write, CtxWriter.size]; exact ⟨rfl, rfl, rfl⟩⟩
  | item t next v vs _ ih =>
    intro n
    simp only [Script.write]
    generalize (encode T _ t Cx.std v).run _ n = r
    obtain ⟨r, n'⟩ := r
    cases r with
    | error er => exact ⟨_, _, _, rfl⟩
    | ok u => exact ih n'

/-- **C54**: an implementation which does not touch the context needs no `bytes_needed` of its own.

Missing: the exceptions of C03. -/
theorem C54_vec_partial {γ : Type} {T : Target} (hT : T.Ok) {en : γ → Endian} {p : Script γ} {c c' : γ} {ms : List Message}
    (hp : Spells en p c ms c') (ht : ¬ Touches p (ms.map Message.v)) (hms : ∀ m ∈ ms, m.Ok T)
    (hmax : (messageBytes ms).length ≤ T.isizeMax) (junk : Nat → UInt8) :
    p.writeVec T en none (ms.map Message.v) c junk = (.ok (messageBytes ms), c') := by
  have hout : ∀ m ∈ ms, ∀ e : Endian, ((encode T e m.t Cx.std m.v).out T.toHost e).1.length = m.bs.length ∧
      ((encode T e m.t Cx.std m.v).out T.toHost e).2 = .ok () ∧
      (e = m.e → (encode T e m.t Cx.std m.v).out T.toHost e = (m.bs, .ok ())) := by
    intro m hm e
    have ho := hms m hm
    obtain ⟨junk, hw⟩ := ho.written
    have hsl := regular_slice _ ho.regular
    obtain ⟨h1, h2⟩ := vec_inv hT ho.layout ho.decl hsl ho.ty hw
    have h3 := wire_sameLen (Fmt.code T.toHost m.e) (Fmt.code T.toHost e) m.t LenR.std m.v
    rw [h1] at h3
    cases h4 : wire (Fmt.code T.toHost e) m.t LenR.std m.v with
    | error er => rw [h4] at h3; exact h3.elim
    | ok bs' =>
      rw [h4] at h3
      have h5 := out_ok hT ho.layout ho.decl hsl ho.ty h4
      rw [h5]
      refine ⟨(show m.bs.length = bs'.length from h3).symm, rfl, fun he => ?_⟩
      subst he
      rw [h1] at h4
      simp only [Except.ok.injEq] at h4
      rw [h4]
  suffices H : ∀ n : Nat, ∃ c'', p.write T (CtxWriter.size T.toHost) (ms.map Message.v) c (T.wrap n) =
      (.ok (), c'', T.wrap (n + (messageBytes ms).length)) by
    obtain ⟨c'', h1⟩ := H 0
    unfold Script.writeVec Script.bytesNeeded
    have h0 : T.wrap 0 = 0 := Host.wrap_of_le (Nat.zero_le _)
    rw [h0] at h1
    rw [h1]
    simp only [Nat.zero_add]
    rw [Host.wrap_of_le (by have := hT.isize; omega), if_neg (by omega),
      script_buffer hp (fun m hm => (hout m hm m.e).2.2 rfl) _ (by simp)]
    simp
  clear hmax hms
  induction hp with
  | stop c => exact fun n => ⟨c, by simp [Script.write, messageBytes]⟩
  | look _ _ => exact absurd (Touches.look _ _) ht
  | update _ _ => exact absurd (Touches.update _ _ _) ht
  | @item t next c c' ms m he hmt _ ih =>
    intro n
    obtain ⟨h1, h2, _⟩ := hout m List.mem_cons_self T.native
    have h3 := run_size (h := T.toHost) (e := T.native) (encode T T.native m.t Cx.std m.v) n
    rw [h1, h2] at h3
    obtain ⟨c'', h4⟩ := ih (fun h => ht (.item _ _ _ _ h)) (fun m' hm' => hout m' (List.mem_cons_of_mem _ hm')) (n + m.bs.length)
    refine ⟨c'', ?_⟩
    simp only [List.map_cons, Script.write]
    simp only [CtxWriter.size] at h4 ⊢
    rw [← hmt, h3]
    simp only
    rw [h4, messageBytes_cons, List.length_append, Nat.add_assoc]

/-! ## A format with a byte order mark

The context is an `Endianness` (src/context.rs:8-15). The first byte tells the byte order of what follows. -/

section
open Samples

/-- Read the mark, set the byte order, read a number. -/
def marked : Script Endian :=
  .item (.prim .u8) fun v => .update (fun _ => if v = .num 1 then .big else .little) (.item (.prim .u32) fun _ => .stop)

/-- The mark for big endian and a number. -/
def markedMs : List Message := [⟨.little, .prim .u8, .num 1, [1]⟩, ⟨.big, .prim .u32, .num 7, [0, 0, 0, 7]⟩]

theorem marked_spells : Spells id marked .little markedMs .big :=
  .item _ rfl rfl (.update (.item _ rfl rfl (.stop _)))

theorem markedMs_ok : ∀ m ∈ markedMs, m.Ok x64 ∧ noRefs m.t = true := by
  intro m hm
  simp only [markedMs, List.mem_cons, List.not_mem_nil, or_false] at hm
  rcases hm with rfl | rfl
  · exact ⟨⟨rfl, rfl, rfl, by simp [hasTy, Prim.size], trivial, rfl, fun _ => 0, by decide⟩, rfl⟩
  · exact ⟨⟨rfl, rfl, rfl, by simp [hasTy, Prim.size], trivial, rfl, fun _ => 0, by decide⟩, rfl⟩

/-- What is written, and the context afterwards. -/
example : marked.writeStream x64 id [.num 1, .num 7] .little ⟨[], []⟩ = (.ok (), .big, ⟨[1, 0, 0, 0, 7], []⟩) := by decide

example : ∃ ms, Spells id marked .little ms .big ∧ [.num 1, .num 7] = ms.map Message.v ∧
    [1, 0, 0, 0, 7] = [] ++ messageBytes ms ∧
    ∀ m ∈ ms, ∀ w : Sink, w.Works → ∃ w', writeToStream x64 m.e m.t m.v w = (.ok (), w') ∧ w'.got = w.got ++ m.bs :=
  C54_written x64 id marked [.num 1, .num 7] .little .big ⟨[], []⟩ ⟨[1, 0, 0, 0, 7], []⟩ (by simp [Sink.Works]) (by decide)

example : marked.readBuffer x64 id .little 4096 ([1, 0, 0, 0, 7] ++ [9]) = ((.ok [.num 1, .num 7], 5), .big) :=
  C54_read_buffer_partial x64_ok marked_spells markedMs_ok ⟨by decide, by decide, by decide⟩

/-- **C54 is false**: the same value cannot be written to a vector. -/
theorem C54_false : marked.writeVec x64 id none [.num 1, .num 7] .little (fun _ => 0) = (.error (.panic .notImplemented), .little) := by decide

example : Touches marked [.num 1, .num 7] := .item _ _ _ _ (.update _ _ _)

example : marked.writeVec x64 id (some fun _ => .ok 5) [.num 1, .num 7] .little (fun _ => 0) = (.ok [1, 0, 0, 0, 7], .big) :=
  C54_own_size marked_spells (by
    intro m hm
    simp only [markedMs, List.mem_cons, List.not_mem_nil, or_false] at hm
    rcases hm with rfl | rfl
    · exact ⟨⟨[1], []⟩, by decide, rfl⟩
    · exact ⟨⟨[0, 0, 0, 7], []⟩, by decide, rfl⟩) rfl (by decide) _

/-- A number, without touching the context. -/
def plainItem : Script Endian := .item (.prim .u8) fun _ => .stop

theorem plainItem_spells : Spells id plainItem .little [⟨.little, .prim .u8, .num 1, [1]⟩] .little := .item _ rfl rfl (.stop _)

example : plainItem.writeVec x64 id none [.num 1] .little (fun _ => 0) = (.ok [1], .little) :=
  C54_vec_partial x64_ok plainItem_spells
    (by intro h; unfold plainItem at h; cases h with | item _ _ _ _ h => cases h)
    (fun m hm => (markedMs_ok m (by simp at hm; subst hm; simp [markedMs])).1) (by decide) _
end

/-! ## Cases -/

section Cases
open Samples

section
open Samples
example := C54_read_partial (en := id) x64_ok (copyingReader_lawful x64.toHost) marked_spells
  (fun m hm => ⟨(markedMs_ok m hm).1, .inl (markedMs_ok m hm).2⟩) (BufSt.init_inv (base := 4096) (buf := [1, 0, 0, 0, 7, 9]) (by decide))
  (rest := [9]) (by decide) ⟨by decide, by decide⟩
end

end Cases

end Verif
