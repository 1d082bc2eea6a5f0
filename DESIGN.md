# Formal model of ProffieOS in Lean 4

## Layout

* `lean/Verif/<Area>/*.lean`: executable model (total functions), helper lemmas, and the property theorems. Every model definition cites the `/repo` file and lines it models and says where it simplifies.
* Property theorems are named `Cxx_...`. `_partial` = only part of the property; `_counterexample` = the code violates the (unrestricted) property and the theorem is the proof of that. Beside each theorem an `example` shows a concrete, non-trivial case meeting its hypotheses.
* Specifications (`expand`, `aRun`, `Sorted`, list histories, ...) are small definitions separate from the model; theorems relate the model to them.
* `properties.jsonl`: the properties. `MANIFEST.json`: status and theorem names. `seeded/LOG.jsonl`: wrong programs tried against the theorems.

## Trusted base

* Lean 4.33.0 kernel. No added axioms, no `sorry`, no `native_decide`/`bv_decide`. Each theorem depends at most on Lean's three standard axioms `propext`, `Quot.sound`, `Classical.choice`; the last table of this file lists them per theorem (from `#print axioms`).
* Mathlib is used only for tactics (`linarith`, `ring`) in `Transition/Smooth.lean` and `Func/Range.lean`, and where a file's imports say so; the kernel checks the resulting terms.
* The reading of the C++: the theorems are about the model. There is no verified C++ semantics; the citations are there so that a reader can compare.
* Machine integers are `Int`/`Nat` with explicit reduction modulo 2^8/2^16/2^32 where the code can wrap, or with range hypotheses stated in the theorem under which nothing wraps. Signed overflow is undefined behaviour and is excluded by hypothesis or modelled as `none`.
* Undefined behaviour (out-of-bounds access, null or wild pointers, division by zero) is a distinct outcome (`none`) wherever the modelled code can reach it.
* Time (`millis()`, `micros()`) is an arbitrary input, constrained only by the hypotheses written in each theorem. Randomness is an arbitrary input.
* Floating point is not modelled (no usable kernel theory of IEEE floats here); code whose logic goes through floats is modelled only where the result does not depend on rounding, or the rounded value enters as an arbitrary input.

## What is modelled

| area | code | not modelled |
|------|------|--------------|
| Store | common/config_file.h, file_reader.h, preset editing (current_preset.h), save files (validated two-file scheme with sequence numbers, checksum and end marker) with a crash after any byte written | FAT metadata, reordering of sector writes below the file system, `PROFFIEOS_BUFFER_WRITES`, `KEEP_SAVEFILES_WHEN_PROGRAMMING`, float formatting |
| Str | common/strfun.h, string_piece.h, arg_parser.h, style_parser.h (argument editing), sorted_line_helper.h, bitset.h, path_helper.h, circular_buffer.h | the styles themselves (built by templates) |
| Num | common/math.h, cyclint.h, range.h, bitfield, box_filter.h, command/event ids | float helpers |
| Reg | looper.h, command_parser.h, linked_ptr.h, ref.h: intrusive lists and rings as heaps of pointers | interrupts between pointer writes |
| Color | common/color.h: mixing, painting over, byte orders, 8/16 bit conversions, SPI output | gamma tables, HSL (float) |
| Saber | common/saber_base.h: on/off state, effect list, blade sets, lockup | motion detection thresholds |
| Input | buttons/*.h: debouncing, click counting, latching, rotary encoder; | touch calibration, pin electronics |
| Audio | sound/audiostream buffers, dynamic mixer, volume ramps, sound queue; producer/consumer interleavings of the ring buffer | DMA and codec drivers |
| Sound | sound/effect.h: file scan, numbering, random/sequential choice | directory recursion, `ShouldScan` |
| Pqoi | common/pqoi.h (encoder, decoder, alpha, row streaming) | display drivers |
| Pov | common/rle.h | image conversion |
| IR | ir/: NEC, RC6, blaster/laser tag protocols, receiver, repeated key suppression | timer hardware |
| Transition | transitions/*.h: progress, fades, wipes, delays, sequences, loops, selection | bent time (float), wave/spark/colour cycle, TrDoEffect |
| Func | functions/*.h: scale, clamp, mult, sum, slow change, hold peak, pulses, trigger, select | float based: bump/blast shapes, sparkle, strobe |
| Blade | blades/sub_blade.h, power_pin.h, ws2811_blade.h main loop and power state machine | bit timing, blade id scan |
| Menu | modes/: list menus, menu stepping, mode stack, cancellable settings, style menu | twist detection (float), speech |
| Speech | sound library number speech, talkie number speech | the sounds themselves |
| Serial | common/serial.h: line reader, RFID frames | drivers |
| PlayWav | sound/playwav.h: chunk parser, sample conversion, resampling | MTP files, `.usl` |
| Prop | props/prop_base.h: search path, clashes, muting, ignition and presets, strokes and gestures, blade id choice; the pre-on part of sound/hybrid_font.h | event dispatch of individual props, battery, motion detection thresholds |
| Style | styles/style.h and blade power decision, ignition and retraction delays | individual colour effects |
| I2C | common/i2cbus.h: lock, waiting list, init | transfers |
| Display | display/monoframe.h and image reading of display/ssd1306.h | layouts, colour displays |
| Motion | common/extrapolator.h, vec3.h, quat.h, motion/motion_util.h, gravity tracking of common/fuse.h | sensor drivers, float rounding, thresholds |
| Swing | sound/smooth_swing_v2.h, sound/looped_swing_wrapper.h | accent swings, players |
| Amplifier | sound/amplifier.h, SLEEP of common/state_machine.h | SGTL5000 variant |
| Blaster | props/blaster.h with PropBase::Event and held buttons | sounds, presets, self-destruct, pre-on |
| Font | sound/hybrid_font.h, what the wav players play next (sound/playwav.h, buffered_wav_player.h), common/ref.h | spins, KILL_OLD_PLAYERS, alternatives, volumes of single players, beeps, changing fonts; fade times are rationals |
| Battery | common/battery_monitor.h, low battery and idle parts of props/prop_base.h | the analog reader (input), the decay function (any in 0..1), floats are rationals |
| Saber buttons | props/saber.h Event2, buttons/button_base.h Send/Loop, props/prop_base.h Event/Clash2/On/Off | debouncing (C33, C34), latching buttons, blade detect, zero buttons, menus (an arbitrary function), sounds |
| Detonator | props/detonator.h, Off of props/prop_base.h | DELAYED_OFF, sounds (their lengths are inputs), tracks and presets |
| Turning menus | common/angle.h, modes/stepped_mode.h, modes/smooth_mode.h (exact arithmetic) | rounding of float, sounds, get/set conversions (gamma) |
| Display scripts | display/layer_controller.h (SCRReader, FillBuffer), EffectFileReader of sound/effect.h | seeking, unmounting the card, the layers' image playing, NUL bytes |
| Stripes | styles/stripes.h, common/sin_table.h | gradients inside colours (styles are values) |
| Blasts and bumps | functions/blast.h (BlastF, BlastFadeoutF), transitions/wave.h, functions/bump.h | OriginalBlastF, Bump::run |
| Sparkles | functions/sparkle.h | the random generator (its numbers are inputs) |
| Timed functions | functions/blinking.h, strobe.h, time_since_effect.h, on_spark.h, brown_noise.h | random_blink.h, sin.h |
| Beeper | sound/beeper.h | float conversion in `Beep` |
| Analog converter | common/analog_read.h (STM32), functions/readpin.h (AnalogReadPinSVF) | calibration, electrical timing, Teensy/ESP versions |
| Rotating sections | styles/color_cycle.h, styles/cylon.h | float rounding, the sine |
| Booster, PWM blades | common/booster.h, blades/simple_blade.h | the pins themselves |
| Fire | styles/fire.h | the random generator |
| Lockup | styles/lockup.h, transitions/base.h (TransitionHelper), handled features | colours themselves (any type) |
| Choosing colours | styles/mix.h, styles/effect_sequence.h, styles/color_select.h, functions/alt.h | colours themselves (any type) |
| Effect transitions | transitions/doeffect.h, styles/transition_effect.h (multi), styles/transition_loop.h, common/saber_base.h (EffectLocation) | the effects fired |
| Oscillators, motion functions | functions/sin.h, twist_angle.h, blade_angle.h, swing_speed.h, clash_impact.h, marble.h, common/sin_table.h | float rounding |
| Small layers | styles/gradient.h, pixelate.h, clash.h, sequence.h, length_finder.h | the hump of the clash, speaking |
| Spoken numbers | sound/sound_library.h (SayNumber and battery) | other spoken messages |
| Preset menu | modes/preset_modes.h | menu navigation itself (C98) |
| SA22C prop | props/saber_sa22c_buttons.h | sounds played, colour change steps |
| Dual prop | props/dual_prop.h (SaberBlasterProp) | the other combinations |
| I2C bus power | common/i2cbus.h (not Teensy) | the electrical bus |
| Potentiometers | buttons/pots.h | DualPot |
| Colour menus | modes/color_menues.h, modes/style_argument_helpers.h, modes/smooth_mode.h | the styles shown meanwhile |
| SD card mounting | common/sd_card.h | the file system |
| Status LED | common/status_led.h (blinking) | pulsing when not blinking |
| Monitoring, clock | common/monitoring.h, common/clock_control.h | trace buffer, clock registers |
| Speaker filter | sound/filter.h, sound/dac.h:663-668 | sine, cosine and tangent approximations; float rounding |
| LED drive | blades/drive_logic.h, blades/dim_blade.h, common/color.h:238-245 | other DriveLogic classes |
| Savi blade | blades/saviblade.h | timer registers |
| Argument counts | styles/get_arg_max.h, styles/style_ptr.h:89-117 | the table of which template has which count |
| Colour cycle, shortener | transitions/colorcycle.h, common/range.h, styles/blade_shortener.h | float rounding |
| Style menu | modes/style_option_modes.h, modes/preset_modes.h:69 | sounds and transitions shown |
| Touch buttons | buttons/touchbutton.h, common/state_machine.h | TSI registers, stm32l4_touchbutton.h |
| Output and commands | common/stdout.h:81-148, common/command_parser.h:50-75 | the serial and Bluetooth hardware |
| Loop counter | common/loop_counter.h | float rounding |
| Effect board | props/audiofx.h | sound files |
| Stream scheduling | sound/audio_stream_work.h, sound/buffered_audio_stream.h:43 | interrupt registers |
| Owned strings | common/malloc_helper.h | how malloc finds a block |
| Pictures in the air | styles/pov.h | float rounding, the angle itself |
| Pictures from a file | styles/file.h | file names, the 500 ms between attempts to open, 32 bit wrap of frame numbers |
| Showing a colour | styles/show_color.h | the argument parser left behind |
| Synthesizer | sound/waveform_sampler.h, sound/lightsaber_synth.h:67-87 | computing the tables; the pitch from the swing |
| Display style | styles/display.h | display/rgb565frame.h |
| Question and answer board | props/micom.h | turning on, presets, track |
| Caiwyn buttons | props/saber_caiwyn_buttons.h | colour menu, blade detection, presets, sounds said |
| Fast button | buttons/fast_button.h | the pin itself |
| FastLED blade | blades/fastled_blade.h | drawing, SPI pins |
| Byte arrays | common/bytearray.h | the limits of the compiler |
| Random blink, charge, volume | functions/random_blink.h, functions/bullet_count.h, functions/volume_level.h | the random generator |
| PWM timers | blades/pwm_pin.h | counter values, clock division, Teensy |
| Cycle counter | common/scoped_cycle_counter.h | cost of the counting itself |
| SD card test | common/sd_test.h | reading, printing, the font's effects |
| Pass-through | common/saber_base_passthrough.h, common/saber_base.h:253-275 | motion, sounds |
| Clash recorder | scripts/clash_recorder.h | file names, speech, buttons |
| Charging, colour cycle | styles/charging.h, styles/rgb_cycle.h | rounding of floats, the sine |
| Talkie speech | sound/talkie.h (bit reader, queue, frame timing) | synthesis filter, resampling, the word data |
| Infrared transmitter | ir/stm32_ir.h | timer registers, pins; the hardware reads a copy of its part |
| Pin tracking | common/resources.h | the C++ template machinery itself |

Completely outside the model: motion drivers, hybrid font sound selection, display layouts, USB/mass storage/MTP, Bluetooth and serial drivers, ProffieOS.ino start-up.

## Plan per property (written before the proofs; later properties added as the model grew)

| id | what is modelled | how proved |
|----|------------------|------------|
| C01 | header/validator/selector/writer as operations on two byte files; a save is a list of file writes; crash = prefix | invariant "the other file is valid and newest until the header write completes"; the header is one sector write (atomic) or torn with doubled fields |
| C02 | same; save sequence | induction over saves |
| C03 | `write_key_value`, `readString` on character lists | round-trip by induction over the string |
| C04 | `readIntValue` | induction over digits, fold |
| C05 | `ConfigFile::Read` loop on a character stream | induction over rendered lines; refinement to a fold over assignments |
| C06 | `SaveAtLocked` streaming copy loop | refinement to list edit, induction over list |
| C07 | `Load`/`SetPreset` | induction/modular arithmetic |
| C08 | `CurrentPreset::Read/Write` | round-trip using C03 |
| C09, C10, C13 | strfun, arg_parser, style_parser on character lists | induction over words |
| C11 | `StringPiece::cmp` | induction; negation witness for `>=` |
| C12 | `format_pattern`/`match_pattern` | induction over the pattern |
| C14 | `BitSet` as word list | refinement to `Finset`/predicate |
| C15 | `SortedLineHelper::find` | invariant min<answer<max, measure decreases |
| C16 | `PathHelper` | list lemmas |
| C17 | `CircularBuffer` with wrapping size_t indices | refinement to list queue; SIZE power of two or no wrap |
| C18 | `Cyclint` over BitVec | omega |
| C19 | `MOD`, clamps | omega / Int lemmas |
| C20 | `Range` | induction counting points |
| C21 | `BitField` over BitVec | bitwise extensionality |
| C22, C23 | pointer-linked registry (heap: node -> next) | abstraction to list, invariant over ops |
| C24 | `LinkedPtr` ring, `RefPtr` count | invariant over ops |
| C25 | `BoxFilter` | invariant over pushes |
| C26 | `EVENTID` | arithmetic |
| C27, C28, C29 | color.h | arithmetic, finite enumeration of byte orders |
| C30, C31, C32 | saber_base.h, blade_base.h | refinement to list history |
| C33, C34, C35 | buttons/ | trace invariants |
| C36 | ring buffer with producer/consumer micro-steps | invariant over interleavings |
| C37, C38, C39, C40 | sound/ | arithmetic and invariants |
| C41, C42 | pqoi.h | simulation between encoder and decoder state |
| C43 | rle.h | round trip; negation witness |
| C44, C45 | ir/ | symbolic run of decoder on encoder output |
| C46, C47, C48, C49, C50, C51 | transitions/, functions/ | arithmetic, trace invariants |
| C52, C53, C54 | blades/ | arithmetic, invariants over op lists |
| C55, C56 | modes/ | arithmetic, refinement to stack |
| C57 | pqoi.h alpha encoder/decoder | simulation as for C41 |
| C58 | config values of every type | round-trip by induction over digits and lines |
| C59 | style_parser argument copying | induction over words |
| C60, C63 | LED bit stream, drive levels | arithmetic over all values |
| C61, C62 | hue rotation, dithering (color.h) | integer arithmetic for all colours, sums over a dither period |
| C64 | latching and floating switches | trace invariants |
| C65, C66 | laser tag protocol, receiver slots | symbolic run, trace invariants over interrupts |
| C67–C69 | repeated and selected transitions, effect layers | induction over frames |
| C70–C72 | ring of sub-blades, blade loop, power delay | invariants over interleavings of calls |
| C73 | colour variation and blade length settings | induction over change sequences |
| C74 | style menu position | arithmetic; negation witness |
| C75 | speech numbers: talkie and sound_library speakers | induction over digits; meaning of a word list |
| C76, C78 | serial line reader, RFID tag reader | refinement of byte streams to lines / frames |
| C77 | play_wav.h as a state machine over file and output room | simulation against the sample list of a well-formed file |
| C79 | `chdir` and the two walks of the search path, as an array | round trip over name lists |
| C80 | clash bookkeeping with wrapping clock | trace invariants relating the clock to real time |
| C81, C82 | muting; ignition, retraction and preset changes | refinement to a two-field spec; invariants |
| C83 | stroke history, twist and shake recognition | trace invariant: every stroke kept was really seen |
| C84 | blade configuration search and rescan | induction over the table |
| C85 | styles: LED power decision, layers switching blades off | invariants over frames |
| C86 | ignition and retraction delays | timed trace invariants with wrapping clock |
| C87 | I2C bus lock and its waiting list | heap refinement to a queue; invariant: one owner |
| C88 | monochrome frame: conversion, drawing | bit index arithmetic; permutation of cycles; frame conditions |
| C89 | incremental line fit in a ring buffer | invariant: the sums are those of the window; normal equations |
| C90 | vectors, quaternions, mounting, gravity estimate | polynomial identities; convexity; contraction |
| C91 | swing sound mixing | termination by a measure; schedule independence; Lipschitz bound |
| C92 | amplifier thread, cooperative sleep | invariant against a specification of wanted sound; bounded liveness by cases on the thread position |
| C93 | blaster: magazine, jams, modes, auto fire | invariants relating state to what was heard; reading the log |
| C94 | hybrid font, wav players, counted references | balance invariant; an invariant of what every player will play, preserved by every event; induction on motion reports |
| C95 | battery monitor (any schedule), low battery and idle checks of the prop | counter = latest low readings; spacing invariant; convex smoothing; ghost history of warnings and use |
| C96 | the standard saber's buttons: `Event2`, modifiers, counted events, clash and lockup | closed forms of each event; an invariant over all histories; gestures from every idle state; reading begin/end of lockups off the actions |
| C97 | detonator: switch, button, pending action, polling | invariant relating state to the log of what was seen; counterexamples |
| C98 | `Angle`, stepped menus, smooth values with and without ends, over an ordered field | invariant: hilt angle = entry angle + bounded difference, modulo whole turns; a wheel with stops as specification; counterexamples |
| C99 | display script reader: buffer, background reading, line interpreter, requests | invariant: outcome of the remaining text is fixed, under every interleaving; work measure for completion; effect of single lines; counterexamples |
| C100 | stripe patterns: position in the pattern, mixing, movement, with 32 bit arithmetic and UB | colour as function of position modulo length; telescoping of frame times; counterexamples |
| C101 | blast, wave and spark mixing, bump, hump; exact rationals for the position | formula for the single blast from the loop; order on distances; counterexamples |
| C102 | sparkle array: blur loop, sparks, limits | loop refines a pure blur; sum does not grow; bound by invariant; counterexamples |
| C103 | blinking, strobe, time since effect, ignition spark, noise on a wrapping clock | real time as ghost, invariant: phase start is on the ideal grid; counterexamples |
| C104 | beeper: queue, half period counter, read in pieces | read = sample at a time stepping; induction on samples; counterexamples |
| C105 | analog readers as state machines sharing the converter, blocking read | invariant over all histories: one owner, values newer than the start; progress measure; counterexamples |
| C106 | ColorCycle and Cylon with exact rationals | overlap of intervals counted point by point, telescoping over LEDs and frames; counterexamples |
| C107 | booster state machine with the 32 bit clock | real time as ghost, invariant; deadline as measure; counterexamples |
| C108 | power state of PWM blades | invariant over event histories; counterexamples |
| C109 | heat array with its loops, colours, ignition delay | loops refine the formula; bound and dark front by induction on updates |
| C110 | LockupTrL over arbitrary transitions, LockupL, handled features, LockupPulseF | phase = function of the frame history; helpers track since when they run; counterexamples |
| C111 | MixHelper, EffectSequence, ColorSelect over arbitrary transitions, alternatives synchronised with variation | closed forms by induction over lists and histories; counterexamples |
| C112 | effect transitions, multi effect layer, transition loop | each instance = the transition run alone since its begin; counterexamples |
| C113 | oscillators over the sine table, motion functions, marble | exact rationals; table facts by the kernel over the whole table, then lemmas; counterexample |
| C114 | Gradient, Pixelate, clash layers, ColorSequence, LengthFinder | division bounds; induction over LEDs and frames with real time; counterexamples |
| C115 | spoken numbers as lists of sounds | a listener (independent evaluator of number words) hears the number, by strong induction; counterexample-free |
| C116 | entries of the preset menu over the preset list of C06/C07 | invariant (current preset in step with the list, selection followed) by induction; counterexamples |
| C117 | the event table of the SA22C prop as decode and execute, with loop and swing detection | exhaustive cases over the table, invariants over histories; counterexamples |
| C118 | dual prop over arbitrary handlers, masks as sets of bits | simulation with the renamed blaster, invariant over histories; counterexample |
| C119 | phases of the I2C bus, 32 bit clock | invariant by induction over requests and loops; counterexample |
| C120 | smoothed potentiometer over an ordered field | induction over readings; instance over the reals; counterexample |
| C121 | colour file, colour arguments over the style strings of C09, smooth modes over an ordered field | round trips, distance of cancelled from original colour; counterexamples |
| C122 | SD card mounting, 32 bit clock | history invariant relating the stored time to the last need; counterexample |
| C123 | blinking of the status LED | flashes counted over any dense schedule by induction against a closed form |
| C124 | monitor bits and clock control | counting by induction; order of interrupts; counterexample |
| C125 | biquad sections over an ordered field, blocks of four | induction over the sound against the difference equations; stability triangle; counterexample |
| C126 | colour selection, LED current over an ordered field, dimming | greatest level by order reasoning; linear arithmetic; counterexamples |
| C127 | interrupt and program as interleaved steps with ghost lists | invariant by induction over any interleaving; counterexamples |
| C128 | combination of maxima over a split list | divisibility by induction over the list; counterexamples |
| C129 | colour cycle over rationals, shortened blade | sum of overlaps by induction over pixels; counterexamples |
| C130 | editing state with arbitrary copy functions; menu kind | case analysis over lists of any length; counterexamples |
| C131 | touch buttons as state machines under any schedule | invariant by induction over the schedule; counterexample |
| C132 | line capture over characters; walk by least next item | induction over the output and the items; counterexample |
| C133 | loop counter over rationals | induction over updates; arithmetic |
| C134 | triggers and one player | invariant by induction over events; counterexamples |
| C135 | streams with room, request flag, linked list | order reasoning, induction over rounds and interleavings; counterexamples |
| C136 | heap as a list of blocks, owners as slots | ownership invariant by induction over operations; counterexamples |
| C137 | run length decoder, columns over rationals, rows | refinement to pieces by induction; equality with the decoder of C43; floor arithmetic; counterexamples |
| C138 | two buffers, interrupt and drawing as interleaved steps | invariants by induction over any interleaving; counterexamples |
| C139 | styles on blades as owned objects, nested programs | induction over programs of any depth; counterexamples |
| C140 | sampler over naturals, sample over checked 32 bit integers | modular arithmetic by induction; bounds; counterexample |
| C141 | pixel mapping, colour widening, buffer choice | arithmetic; pigeonhole invariant by induction over histories; counterexamples |
| C142 | triggers, question and one player | invariant by induction over events; case analysis; counterexamples |
| C143 | buttons, menu, lockup and track player as one machine | invariants by induction over events; rotation by induction over rounds; counterexamples |
| C144 | interrupt and the steps of the loop interleaved | invariant by induction over any interleaving; counterexample |
| C145 | power, style and clock as a machine | invariants by induction over events |
| C146 | templates as functions on lists of bytes | well founded induction; counterexample |
| C147 | bits, wrapping clock, checked arithmetic | induction over calls; construction of a pattern; counterexamples |
| C148 | use counts of timers, channels of the ESP32 | invariant counting uses, by induction over histories; counterexamples |
| C149 | cycle counter modulo 2^32 with a stack of scopes | refinement to own cycles of each scope, by induction over events; counterexamples |
| C150 | directory tree, buffer and end position; columns | structural induction over the tree; induction over times; counterexample |
| C151 | list of listeners and delegates | invariant up to permutation, by induction over changes; counterexamples |
| C152 | ring of samples, countdown, search for a file | invariants by induction over samples; well founded induction for the search |
| C153 | exact arithmetic in millivolts; colour cycle in eight bits | case analysis by range; counterexample |
| C154 | bit reader over bytes, word queue, eight bit sample counter | bit by bit equality with the flattened data; induction over histories; counterexample |
| C155 | buffer of pairs, counts to send and sent, the reading hardware | invariant and stream refinement by induction over histories; counterexamples |
| C156 | table of users of resources, bonds as a list of pairs | induction over declarations; compiles exactly when no two uses clash; counterexample |

## Result per property

| id | property | status | what is proved / missing |
|----|----------|--------|-------------------------|
| C01 | Saving settings or presets is crash-consistent | proved | Byte-level model of the two alternating files; crash = any prefix of the byte writes. C01_crash needs no checksum assumption (earlier crashes in the history do not tear bytes 16..31 of the header, the last one may be anywhere); C01_crash_checksum allows torn headers in the whole history given that the checksum rejects incomplete files. |
| C02 | After any number of saves a load returns the last save | proved | Any history of saves, crashes and restarts, then a save, then a load; C02_settings goes down to the variable values. |
| C03 | String values survive being written to and read from a config file | proved | Leading blanks are lost, as stated. |
| C04 | Integers survive being written and read | proved |  |
| C05 | Config file reading: last assignment wins, the rest default | partial | Proved for all files of assignments, comments, install lines and lines with a character other than white space or '=' after the name. False for lines consisting of a bare name or of 'name=' without value: they swallow the next line (counterexamples proved). |
| C06 | Preset list editing behaves like list editing | proved | Positions behind the end of the list drop the preset (shown). |
| C07 | Preset navigation wraps around | proved | For non-empty stored lists. |
| C08 | A saved preset reads back identically | proved |  |
| C09 | Style arguments: set then get | proved | For style strings without trailing blank and styles whose defaults are proper words, every argument number and value; the counterexample shows that a trailing blank moves the new argument one position on. |
| C10 | Word helpers split text into its words | partial | Everything except counting holds for all texts; counting is off by one for texts ending in a blank (proved as C10_count_trailing_blank). |
| C100 | Stripes cover the blade without gaps and move at their speed | partial | Proved for frames and speeds within 32 bit products. The code fails outside: delta*speed overflows after 2.2 s at speed 1000, slow speeds with short frames never move, width 1 exceeds 32 bits at LED 84, HardStripes edges underflow (flash of full brightness) and widths above 50000 are black; each has a counterexample. |
| C101 | Blast waves, sparks and bumps have the right shape, place and size | partial | Exact real arithmetic for the position; N = 32 excluded because blast_hump[32] is read out of bounds there (counterexample). Further counterexamples: a single blast never reaches 32768, TrWave's index overflows to a negative one, the bump is not monotone because of & 0x3f. OriginalBlastF and Bump::run are not modelled. |
| C102 | Sparkles spread, fade out and never overflow | partial | Spreading is exact except at the far end: after an update the last LED is always dark and its light goes to the one before (counterexample); an intensity of 20000 overflows a short (counterexample). |
| C103 | Blinking, strobing, effect timers and noise keep their promises over time | partial | Blinking for periods up to 35 minutes and sparks up to 131 s; beyond that the products overflow (counterexamples). Random numbers are inputs. |
| C104 | Beeps are square waves of the right length and order | partial | Two defects, each with a counterexample: a silence begins with what is left of the tone's half period, and a beep of no length blocks the beeper for ever. Floating point conversion of frequency and duration is not modelled. |
| C105 | Readers of the analog converter never disturb each other | partial | Proved for the meant use (Start before Done, readers outlive their reads). Counterexamples: AnalogReadPinF hangs if its first run finds the converter busy; deleting it while reading leaves a dangling pointer and a busy converter; Done before Start leads to a null pointer. |
| C106 | Rotating and sweeping sections have their size, speed and colours | partial | float is exact rational arithmetic; the sine is an input. Counterexamples: Cylon ignores its off speed; ColorCycle may be dark for a moment while fading to 100 percent. |
| C107 | The booster is on while it is needed and goes off afterwards | partial | The second of waiting and switching off hold until the 32 bit clock wraps around; counterexamples: off at once near the wrap around, a sleep of 49 days across it, 'booster off' followed by Enable leaves it off, and a main loop missing for ten seconds leaves it on. |
| C108 | A PWM blade has power while on and none when off and dark | partial | Counterexamples: a blade deactivated while on believes to be on when activated again; an effect while off leaves the load flag set (low battery limit 2.6 V instead of 3.0 V). PWM values themselves are C42 and the style is an input. |
| C109 | Fire never burns outside its array, never exceeds its fuel and goes out | proved | For SPEED of at least 1; with SPEED 0 the code reads before its array (counterexample). Random numbers are inputs. |
| C11 | Text comparison is a consistent case-insensitive order | partial | cmp is a total preorder on case-folded texts and five operators agree with it; operator>= of StringPiece is wrong in the code (C11_ge_counterexample). |
| C110 | Lockup layers show each lockup once, fade in and out, and settle | partial | No jumps unless a lockup begins (ends) again while its previous beginning (ending) is still running; then there is one (counterexample). LockupPulseF pulses in every frame instead of once (counterexample). |
| C111 | Choosing and mixing among colours keeps to the given ones and follows the selection | partial | Counterexamples: the first effect leaves EffectSequence at its first colour; ColorSelect jumps when the selection changes during a transition. |
| C112 | Effects shown by transitions each run once, from their beginning, at the right place | partial | Counterexamples: a LOCATION other than -1, 0, 1 is out of the range of its conversion; EffectLocation::rnd wraps around in 16 bits. |
| C113 | Oscillators, twist, angle, swing and clash functions keep their range and period | partial | float idealised as rationals. Counterexample: ClashImpactF divides by MAX instead of MAX-MIN, so full strength is never reached when MIN is not 0. The sine misses HIGH by one part in 32768. The phase of Sin and Saw is not initialised. |
| C114 | Gradients, pixels, clashes and colour sequences are where and when they should be | partial | Counterexamples: Gradient divides by zero on one LED and the tip is not quite the last colour; Pixelate freezes for ever on a blade of at most N LEDs; LocalizedClash shows a clash again when the clock has gone round (71 minutes); LengthFinder turned below the first LED jumps to the last. |
| C115 | Spoken numbers say the number | proved | Numbers from 0 (a negative number asks for a sound with negative index). float idealised as rationals. |
| C116 | The preset menu moves, copies and deletes the preset that was chosen | partial | Counterexamples: deleting a preset before the selected one makes insert insert another one; after deleting, moving down puts the deleted preset back; changes made after deleting are lost. |
| C117 | SA22C button prop: lockups, battle mode, turning off and volume | partial | Counterexamples: a stale automatic lockup ends a later manual one; no lightning block by button in battle mode, against the documentation; a second clash begins a lockup twice; twisting off keeps multi blast; the saber can be turned on, muted, in the volume menu; one button volume directions differ from the documentation; volume can exceed the configured one. |
| C118 | Dual prop: without a blade exactly the blaster, with renamed buttons | partial | Holds for buttons other than FIRE and MODE_SELECT; counterexample: a physical FIRE button becomes POWER. |
| C119 | The I2C bus is powered exactly while it is used | partial | Non-Teensy boards. Counterexample: 24 days after the last request the bus is woken without a request. |
| C12 | Search-path patterns: generate then recognise | proved | For every pattern with a star; without a star the matcher divides by zero (C12_no_star). |
| C120 | Potentiometers: smoothed reading, volume and variation in range | partial | float idealised as an ordered field, the exponential by its laws (real exponential shown to meet them). Counterexample: full volume and variation are never reached. DualPot not modelled. |
| C121 | Colour menus: list of colours, saving, resetting and cancelling | partial | Counterexamples: files with CR LF give wrong colours; a file with one line gives none; a last line without line feed is lost; reset reads the wrong argument; cancelling the brightness changes the saturation; cancelling a component may darken it. |
| C122 | The SD card is mounted while needed and given back when not | partial | Counterexample: 49 days after the last use the card is mounted without need. |
| C123 | The status LED blinks the number it was told | proved | 500 (N+3) < 2^32. With slower loops flashes may be missed (counterexample, outside of the claim). The pattern when not blinking is not modelled. |
| C124 | Monitoring output is limited; the processor is not slowed while in use | partial | Counterexample: an interrupt between reading the activity and the clock is not seen, so the processor is slowed a moment after activity. |
| C125 | The speaker filter: the difference equations of a stable high pass | partial | Floats idealised as an ordered field; PO_sin, PO_cos and PO_tan not modelled. Counterexample: the square root is wrong below 1 (not used there). |
| C126 | High power LEDs get no more current than allowed, colours no more than asked | partial | Counterexamples: a warm white LED makes blue wrap around; from 201 percent on dimming overflows; a style on a dimmed blade is activated twice. |
| C127 | Savi blades: commands arrive complete and in order | partial | For at most seven waiting commands. Counterexamples: eight commands at once are all lost; a colour changed while the blade is on is reverted by the next repeat. |
| C128 | The menu offers as many values for an argument as the style has | partial | For positive numbers with a common multiple below 2^31. Counterexamples: mixed kinds are reported as 4 settings; a selection of no values divides by zero; only arguments 0, 10 up to 90 are reported at all. |
| C129 | The colour cycle lights the right fraction; a shortened blade is dark at its end | partial | Floats idealised as rationals. Missing: when both ends fall on the same place the blade is dark (counterexample). A shortener never grows again (counterexample). |
| C13 | Argument parser selects the right word | proved | Every argument string, number and shift. |
| C130 | Style menu entries act on the blade and setting they name | partial | Counterexamples: with a style of another blade selected that blade is changed; without a selection memory before the list is read; resetting colours does nothing without a selection; layer transparency gets the number menu; opening and confirming the time menu shortens any time. |
| C131 | Touch buttons take turns measuring and each measurement ends | partial | Hardware registers and the STM32 version not modelled. Counterexample: a turn begun just before the microsecond clock wraps leaves all touch buttons dead for 71 minutes. |
| C132 | A command's output can be read line by line | partial | Counterexample: for an empty or missing line the buffer of the caller is left as it was, without a terminating zero. |
| C133 | The loop counter shows the real rate | proved | Floats idealised as rationals; updates at which the clock shows exactly zero excluded. |
| C134 | The effect board plays the sound of the trigger pressed | partial | Counterexamples: letting go of a hold trigger stops the sound of another; latching sounds never play. |
| C135 | The emptiest sound buffer is filled first and none is forgotten | partial | Requests after the last look and before the flag is cleared are missing (counterexample); so are requests while the card is locked (counterexample), a stream with nothing to give blocks the others (counterexample), and destroying the oldest stream reads through null (counterexample). |
| C136 | Strings of a preset are freed just once and never leak | partial | For the Proffieboard, without explicit Free and without assigning an object its own pointer. Counterexamples: on the Teensy nothing is ever freed; Free leaves the pointer to be freed again. |
| C137 | Pictures drawn in the air: the right column, decoded as drawn | partial | Floats idealised as rationals. Missing: repeated with mirroring the columns are out of proportion and may be outside the table (counterexamples); outside the angles the blade does not go dark (counterexample); a piece beyond the end of a column is written beyond the buffer (counterexample); pictures the tool encodes wrongly (C43). |
| C138 | Pictures from a file: whole frames, in step with the sound | partial | Counterexamples: when the sound starts over a frame of its end is shown; when the player goes away a null pointer is read; the picture file of the first sound stays open for all later ones. |
| C139 | After showing a colour each blade has its style back | partial | For well nested uses of different helper objects. Counterexamples: the same one started twice leaves a deleted style on the blade; changing the preset while a colour is shown brings back the style of the preset before. |
| C14 | Bit set behaves like a set of numbers | proved | Every size and content. nth for an index that is not below the number of elements reads outside the array when the size is a multiple of 32 (C14_nth_out_of_bounds). |
| C140 | The synthesized hum neither overflows nor leaves its tables | partial | Missing: when the steps sum to a whole number of turns the sample is read from beyond the table (counterexample: at any fixed pitch, once in 67108864 samples at the latest). How tables and pitches are computed from floats is not modelled. |
| C141 | A blade as a display shows each pixel in place and only whole frames | partial | Counterexamples: on folded strips (the default) odd rows are shifted by one and the last reads beyond the picture; so do pictures turned upside down; with two styles the default of three buffers is not enough; drawing before the first frame reads through null. |
| C142 | The question and answer board plays the answers of its question | partial | Turning on, presets and the track are not modelled. Counterexamples: answering before the question is said to its end closes it without playing anything; questions with only answers five to eight are never open. |
| C143 | The Caiwyn buttons: volume within limits, tracks in turn, no surprises in the menu | partial | The colour menu, blade detection and presets are not modelled. Counterexamples: with three buttons and CAIWYN_BUTTON_LOCKUP aux and aux2 begin a lockup within the menu and within a lockup; a lockup begun during pre-on outlives the blade being turned off; the menu outlives it too and the dark hilt changes the volume; a mode number on the card that is none of the three stays for good and silences the player; with VOLUME below ten turns change nothing. |
| C144 | A button read by interrupt loses no press | proved | Reads and writes of the flag are taken as atomic. One click for each press does not hold (counterexample): presses before the loop comes by, or bounces, give one click. |
| C145 | A FastLED blade has power when it needs it, and is refreshed at most once in a millisecond | proved | What is drawn and the sharing of SPI pins are not modelled. |
| C146 | Numbers and strings made at compile time are what they say | proved | For strings without zero bytes; one with a zero byte is cut off there (counterexample). |
| C147 | Random blinking keeps its pace and each pixel its own bit; levels are in proportion | partial | Missing: frequencies of zero divide by zero and those below zero blink with every call (counterexamples); volumes from 65536 on overflow and those beyond the loudest show more than full (counterexample). |
| C148 | A shared timer runs exactly while one of its pins is in use | partial | For pins that can be used for PWM, given up as often as taken; use counts do not wrap. The ESP32 claim is for pins only being turned on. Counterexamples: a servo on the common timer gets the frequency of lights; giving up a pin that was refused stops the timer of another; full value is 32767 of 32768; on the ESP32 a pin turned off stays dark for good. |
| C149 | Time is counted for the innermost part of the program, once | partial | For parts with less than 2^32 cycles of their own, and not on the ESP32 (counterexamples for both). Entering and leaving take no time in the model. |
| C15 | Sorted menu shows the n-th smallest line | partial | Termination and the right line for every list of lines that differ up to case, in every order, every query history; up to 27 lines without further condition, beyond that unless the step width overflows (C15_overflow: it can). Missing: lists with duplicate lines, for which the code is wrong (C15_duplicates_counterexample). |
| C150 | The test of the SD card reads every file below a directory | partial | For whole names of at most 255 characters, of directories with the slash; longer ones are written beyond the buffer (counterexample). Printing is not modelled. |
| C151 | Swing sounds in front of a font lose and repeat no event | partial | For the first round of events, with wrappers put in front of listeners that are in the list. Counterexamples: the second round is not passed on; two wrappers in front of one font pass on everything twice. Motion, which the wrappers handle themselves, is not modelled. |
| C152 | A recorded clash is whole, in order, and never written over another | proved | Files are known by their numbers: the making of the name is not modelled. The speech and buttons between recording and saving are not modelled. |
| C153 | The charging style shows the battery by colour and height | partial | Voltages are whole millivolts and floating point is exact; the sine is an input. Counterexample: a battery low enough leaves the whole blade dark. Colours are blended over 0.05 volts, not the 0.1 of the comment. |
| C154 | Speech is read bit by bit, word by word, in order | partial | The frame length is proved while the length fits the eight bit counter (rate up to 36). Counterexample: with a larger rate the frame never ends. The synthesis filter and the resampling are not modelled. |
| C155 | Infrared messages go out whole and in order | partial | Bounds are proved for every history. That all light goes out is proved for messages of at most 128 pulses, signals of at most 0.1 s, and hardware that has read its part before the next call. Counterexamples: the busy flag is never set, so a second message sent during the first cuts it off; a message of more than 128 pulses loses its beginning. |
| C156 | A pin used by two parts of the program is found when compiling | partial | Proved when no input is declared at the missing pin. Counterexample: an input at -1 never compiles, as two special cases of the template fit. The compiler is modelled as a pass over the declarations. |
| C16 | Path joining and splitting | proved | Every path that fits the buffer (C16_append_total: it fits whenever it is short enough); longer ones overflow the buffer in the code and are outside the theorems. |
| C17 | Circular buffer is a FIFO queue | proved | Every capacity that divides the counter range (all uses: 16, 32, 1024), every operation sequence, any counter position; a capacity that does not divide it breaks at wrap-around (C17_wrap_counterexample). Sequential use; interrupt interleavings are C36's subject. |
| C18 | Wrap-around time comparison | proved | All widths; half-range bound shown sharp. |
| C19 | Modulo and clamping | proved | MOD by 0 is UB (none); float clamp not modelled. |
| C20 | Stripe and range overlap | proved | 32-bit wrap-around modelled; the offset variant needs end + mod < 2^32. |
| C21 | Register bit-fields are independent | proved | For values that fit the field; C21_field_spill shows larger values spill into neighbours. |
| C22 | Update loop registry | proved | Every allowed history, arbitrary initial link fields; dynamic rounds under the stated politeness of callbacks, with a counterexample showing why it is needed. Cycle counters and loop timing are not modelled. |
| C23 | Command dispatch | proved | Handlers accept or refuse as an arbitrary predicate; handlers that change the registry while asked are not modelled. |
| C24 | Shared pointers free exactly once | partial | Counted pointers complete. Linked pointers: all histories except assigning a raw pointer to an object that shares its target, where the code leaks (counterexample proved). |
| C25 | Moving average filter | proved | Integer samples of unbounded size; clear() leaves the first sample (counterexample proved). |
| C26 | Button/event identifiers are unique | partial | Uniqueness holds for all real buttons. It is false for BUTTON_NONE versus BUTTON_POWER (witness proved); that is proved to be the only collision. |
| C27 | Colour mixing stays between its inputs | proved | All mix functions of Color8/Color16 and all MixColors overloads. mix_clamped clamps to 65536, which wraps to 0; shown by the counterexample and excluded from C27_clamped. |
| C28 | Layer compositing is well-behaved | proved | All twelve operator<< overloads and the alpha multiplications. The conversion RGBA(const RGBA_nod&) multiplies by alpha twice; shown by the counterexample. |
| C29 | LED byte order | proved | All 33 byte orders, all colours; inverse and reordering for the six RGB orders. Reordering on a blade with a white channel is undefined; shown by the counterexample. |
| C30 | Effect history | proved | For 32-bit microsecond time stamps the list must be looked at at least every 4287 s; otherwise old entries would look young again. |
| C31 | On/off notifications | proved | Components do not register or unregister during a notification (see C22 for that). |
| C32 | One-shot effect detectors fire once per effect | proved | The detector's last_detected_ starts uninitialised: the theorems hold for every initial value. Two effects with the same 32-bit microsecond stamp are merged. |
| C33 | Debounce | proved | Debouncer as a state machine over samples; exact characterisation for every history, 32-bit clock wrap included. |
| C34 | Button event grammar | proved | Debouncer and button together, polls at most 2 ms apart; the counterexample shows the grammar fails for slower polling. Time is constant within one step of Loop. |
| C35 | Rotary encoder counts detents | partial | Holds within the 8-bit range once an interrupt is attached; the code never attaches the first interrupt and wraps at 128 quarter steps (both proved). |
| C36 | Audio ring buffer delivers the decoded stream | proved | All interleavings of the filling interrupt, the reading interrupt and the main program, which acts on the buffer only while the other two are idle (single core) and clears before changing stream. On a dual-core ESP32, where clear can overlap a fill, an old sample can survive: proved as a counterexample. |
| C37 | Volume ramps never overshoot | proved | Volumes up to 65535 (full volume is 16384): no overflow of the product. |
| C38 | Mixer output is in range and sounds add linearly below the limiter | proved | Integer version of the mixer (fixed-point boards); up to 64 streams, volume times streams*32768 below 2^31. Not modelled: floating point read, statistics counters. |
| C39 | Sound queue | proved | Players are environment choices; object in static storage (zero-initialised). |
| C40 | Sound file scanning | proved | For every listing order, every set of other files, and every position on the search path: numbers, counts and names. Consistently named families with the lowest number at most 127; with all numbers above 127 the code fails (C40_min_counterexample). Directory recursion order is not modelled. |
| C41 | Image compression round-trip | proved | Full codec incl. lookup table; any start state and trailing bytes. |
| C42 | Streaming image decoding is independent of buffer sizes | proved | Any split of the input, any request size; row chunks of width >= 4. |
| C43 | POV run-length coding round-trip | partial | Round trip, output size and byte range for every input without a repeat of 256 bytes (unless they are all equal). With such a repeat the code is wrong: the length 256 is stored as 0 (C43_counterexample). |
| C44 | NEC infrared round-trip | proved | Every sequence of 32-bit codes, 16-bit codes and repeats, with any distortion within the decoder's own tolerance and pauses of at least 10 ms. |
| C45 | RC6 infrared round-trip | partial | Every control and information byte and toggle, every jitter below 150 us per (merged) pulse, any number of frames. A code with an odd information byte is only received if the length of the silence after it happens to be near a multiple of 444 us: the full claim is false, shown by C45_counterexample; C45_frame says exactly which frames are received. |
| C46 | Transitions run from the old colour to the new one | partial | Start, end, order and duration proved for every combination of transitions and every frame schedule. Progress is monotone only for fades under 262 s (131 s for smooth fades, up to one rounding step): counterexamples show that longer ones jump back, and that a blinking transition ends with the first colour. Bent time scales (floating point) not modelled. |
| C47 | Wipes light exactly the completed fraction | partial | Proved for all blade sizes and durations with size times milliseconds below 2^24; the counterexample shows that longer wipes start again. |
| C48 | Integer style functions stay in range | partial | Range and documented values for all inputs, LEDs and blade lengths up to 32767. IntSelectX picks the wrong function for negative selections (counterexample), so its theorem covers selections >= 0 only. |
| C49 | Threshold pulses fire once per excursion | proved | For every history of inputs, thresholds and percentages whose product fits an int. |
| C50 | Slow-changing and peak-hold functions | proved | For every history of inputs and frame times, speeds 0..2^31-1 and inputs within +-2^30. C50_arrives needs speed * frame time >= 1000000; the counterexample shows the value stuck for ever otherwise. |
| C51 | Trigger envelope | partial | For every history with frame gaps up to 1000 s and constant times below 54 min each; longer gaps can restart the envelope (counterexample). |
| C52 | Sub-blades address exactly their own LEDs | partial | plain, reverse, stride and zig-zag; zig-zag needs whole rows, otherwise it leaves its range (counterexample) |
| C53 | Shared power pins | proved | with SHARED_POWER_PINS and at most 255 users of a pin; the default build does not share (counterexample) |
| C54 | Physical blade activation follows sub-blades | proved | all histories of creating, activating and deactivating sub-blades |
| C55 | Menu navigation | proved | All sizes 1..65535 and all step sequences; every nonempty entry list. An empty menu divides by zero (counterexample). |
| C56 | Mode stack | proved | For all histories in which no mode is entered while already open, which every acyclic menu structure guarantees; entering the current mode again can never be left (counterexample). |
| C57 | Images with transparency survive encoding | proved | Alphas exact; colours exact wherever alpha != 32. |
| C58 | Settings values survive saving and loading | partial | Proved for all non-negative values; false for negative ones (-1.5 is written as -2.-50 and read back as -2), counterexample proved. |
| C59 | Copying arguments between style strings | partial | The variant that keeps the arguments after a position allocates too small a buffer in some cases (C59_copy_after_overflow). |
| C60 | LED signal bits | proved | Both word layouts (pin mask and timer values). |
| C61 | Hue rotation keeps brightness and saturation | proved | Angles from 0 up to the point where int overflows; third-of-circle rotations up to 5 steps of rounding. |
| C62 | Dithering is unbiased and bounded | proved | Average over the 4x4 block for values between the first and last level. |
| C63 | Drive levels | partial | Selection is proved in full. SPI output wraps to 0 for 118 of the 65536 brightest-channel values; these are listed and excluded, and shown by the counterexample. |
| C64 | Latching and floating switches | proved | State machines stepped once per reading. |
| C65 | Laser tag messages arrive and only real ones count | proved | Blade on (SaberBase::IsOn is the only other condition). Jitter below 100 us per pulse, any silence between messages. |
| C66 | No infrared pulse is lost between interrupt and decoder | partial | Exactly once and in order for every interleaving with at most 15 waiting pulses, but each pulse is delivered one pulse late because the writer stores at head+1 and the reader reads at tail: C66_counterexample shows the newest pulse is still in the buffer when the loop believes it is empty. |
| C67 | Repeated transitions | partial | C67_plays says exactly how often the transition is played: N times if it reports done right after begin, N+1 times otherwise. The counterexamples show that sequences, and fades that are begun again while running, are played N+1 times. |
| C68 | Selecting a transition | proved | Proved. C68_counterexample: TrSequence starts with its second transition, not the first as documented. |
| C69 | Effect layers | proved | Proved for TransitionEffectL, TransitionPulseL and TransitionHelper. MultiTransitionEffectL not modelled. |
| C70 | Every sub-blade is rendered once per frame | partial | needs exactly one sub-blade with the first LED of the blade; without one nothing is ever rendered (counterexample) |
| C71 | Blades sharing the pixel buffer never show each other's pixels | partial | fails when a style is removed during the wait for a frame, and a blade deactivated during that wait keeps the buffer for ever (counterexamples) |
| C72 | Blade power is cut only after the power-off delay | partial | an ignition during the wait to send the last frame leaves the blade on but dark (counterexample) |
| C73 | Cancelling a colour change or blade length change restores it | proved | All starting values and all change sequences. Settings stored through floating point (volume, dimming) are not covered. |
| C74 | The style menu offers every built-in style and starts at the current one | partial | The code violates it: blade and preset are exchanged when the position is decoded. Proved: exactly when the style is kept, and that styles are unreachable. |
| C75 | A spoken number is the number | proved | Both number speakers say exactly the number with recorded words. Outside the quantifier: negative numbers ask for a recording that does not exist, and rounding to two digits overflows above 10^9 (both shown by witness). |
| C76 | Serial lines are executed exactly once each | partial | Proved for every stream as long as allocation succeeds; buffer safety and the effect of disconnection proved for all streams and allocation failures. Fails in one case: when allocation is refused in the middle of a line, the rest of that line is executed as a line of its own (witness). |
| C77 | A WAV file is played completely and only its sound | partial | Proved for every well-formed file without padding bytes, supported format, first file played, and (when resampling) amplitude below full scale, except that the last frame is missing. The code violates the full claim: the last frame is never played; resampling loud samples overflows an int; a file with frames of more than 8 bytes makes the player move bytes to before its buffer; a chunk length near 2^32 hangs it; odd chunks with the padding byte the format demands are not understood; the resampler starts with the end of the previous file (all with witnesses). |
| C78 | RFID tags are recognised exactly | proved | Proved for all tags and all streams; the counterexample shows why the parser must be waiting: a stray start byte immediately before a tag makes it miss the tag. |
| C79 | The font search path is walked in the order written | partial | Proved for every list of non-empty names which fits the buffer. The code violates the full claim (witnesses): longer paths are written beyond the array, an empty name hides the rest of the path, and an empty first name makes the backward walk read before the array. |
| C80 | One clash per hit, and none while asked to ignore | partial | Silence after requests, buttons and clashes is proved for all histories, the announcement of hits for all histories ending in calm. Missing from the full claim because the code violates it (witnesses): a clash waiting for a button can be announced right after another one; a later, weaker contact can replace a stronger one waiting; after 2^32 ms without contact one is ignored; an interrupt between clearing the flag and reading loses the greater strength. |
| C81 | Muting never loses the volume | partial | Proved for histories in which the volume is not changed while muted and silent ignitions are not mixed with other muting. The code violates the full claim otherwise (witnesses): a volume set while muted is lost on unmute, a reboot while muted with SAVE_VOLUME stays silent, a stale flag unmutes later, a silent ignition cancelled before the blade is on stays muted. |
| C82 | On and off reach exactly the blades asked for | partial | Proved for all histories as long as no second operation falls into an ignition under way (turning everything off may). The code violates the full claim in that case (witnesses): a second ignition loses the blades of the first; turning one waiting blade off turns all off; switching presets turns on all blades; changing the font loses the ignition while the prop counts as on. |
| C83 | Twist and shake are signalled exactly for those movements | proved | Proved for all histories; the classification of gyro and acceleration samples into strokes (floating point) is input to the model. Shake is proved from 250 ms after the start: before that the zeroed history can count as strokes (witness). |
| C84 | The blade configuration closest to the measured resistor is used | proved | Proved for all tables and measurements within 100 megohm of some entry; with none that close the first configuration is used (witness). |
| C85 | A blade is only powered down when it is dark and stays dark | partial | Proved for all nestings of the modelled styles and functions which satisfy a syntactic side condition (Sty.ok). The code violates the full claim outside it (witnesses): a section covering the whole range counts as everything though its ends are not covered; Cylon with black off colour but coloured base; fire which is relit; spark tip with a negative extension; nested ignition and retraction delays. |
| C86 | Ignition and retraction delays | partial | Proved for constant delays and all histories. A negative retraction delay (which for ignition means none) never lets the style retract (witness). |
| C87 | The I2C bus is given to one device at a time, in the order of the requests | partial | Proved for all executions in which a device does not call I2CUnlock between its request being accepted and its RunLocked() being called; without this condition the call goes through a null pointer (C87_early_unlock_counterexample). |
| C88 | Monochrome displays show images, text and shapes exactly, without leaving the frame buffer | partial | Landscape images, glyphs overlapping the rows of the display, texts without DEL, pixels, lines and rectangles proved for all sizes. The code violates the rest: drawing below the display shifts by the word size, DEL reads beyond the font, ClearRect clears the rows above the rectangle too, the portrait layout is never selected, and flipping on 64-line displays shifts an int by 32; each has a witness. |
| C89 | Motion readings are smoothed and extrapolated by the least squares line through the latest samples | proved | common/extrapolator.h, both classes, over rational numbers (float rounding is not modelled); 32 bit clock with wrap. Conditions: 1 <= N <= 1024 and samples at most G microseconds apart with (1024+N)*G < 2^32 (about 4 seconds for N = 10); at least one sample (before the first one the code divides by zero; the model then has no value). |
| C90 | Orientation arithmetic turns vectors without changing lengths or angles, and the direction of down converges | partial | vec3.h, quat.h, motion_util.h and the gravity part of fuse.h over any ordered field. Partial because the code violates the full claim: Vec3 RotateY is not a rotation (it maps the x axis to zero at a quarter turn), and Quat divided by a float divides the vector by a truncated integer, so invert divides by zero for squared lengths below 1. Floating point rounding is not modelled. |
| C91 | Swing sounds are mixed by the angle turned, without sudden changes, and their volumes add up | partial | smooth_swing_v2.h (SB_Motion, PickRandomSwing) and looped_swing_wrapper.h over rational numbers; accent swings and player start/stop are not modelled. Partial because the code violates the full claim: at the end of a swing new sounds are picked in the same call that asks for the fade (the OUT state does not wait); continuity needs transitions that do not overlap (the defaults satisfy it); separations of 0 in the configuration file make the loop endless. |
| C92 | The amplifier is on while something plays and goes off in silence | partial | The code violates the rest: sleeps go wrong when the clock wraps; the amplifier stays on if an announcement is followed by 30 ms without a main loop round and nothing plays; amp off leaves it marked on. |
| C93 | A blaster fires only what is in the magazine, and auto fire lasts as long as the trigger is held | partial | The code violates the rest: auto fire goes on if the trigger is let go with another button held, and needs no ammunition; a power cut during auto fire blocks mode changes; Reload fills the magazine without a clip. |
| C94 | The hum sounds while a blade is on, and only then; sound players are not shared | partial | References, exclusivity, the volume and the fades hold for every history. The hum being there while on and silence while off hold for complete fonts and histories that keep to stated rules; the counterexamples show that each rule is needed: cancelling a pre-on, an effect in place of the hum while off, no free player, pre-on during the fade out, turning off a blade that is not the main one, a blast with a monophonic font, a font without hum. |
| C95 | Low battery and being left alone are noticed, and only then | proved | Any schedule of the monitor's loop, any decay factors in 0..1 (floats as rationals). The report is exact for the first 2^32 readings; after seven weeks of low readings in a row the counter wraps and the report pauses for a second (C95_wrap_counterexample). Completeness of warnings and of the idle switch-off is for spans below 2^32 ms. |
| C96 | The buttons of the standard saber do what its header says | partial | Everything holds for the saber without DUAL_POWER_BUTTONS except: a quick second press of AUX gives an additional blast and keeps an old drag direction; with DUAL_POWER_BUTTONS both buttons become POWER. The three failures are proved as counterexamples. |
| C97 | The detonator explodes only when armed | partial | Proved for all histories in which it is not switched on while an explosion is pending; otherwise the pending explosion survives switching off and on (counterexample). Also shown: the switch is ignored while the button is held. |
| C98 | Menus and settings follow the turning of the hilt | partial | Exact arithmetic instead of float. Partial because the code violates the last sentence: opening a value between the ends lowers it by the margin, and a click at the top end jumps to the bottom (counterexamples). Tracking is for turns of at most one entry between two loops at no more than one turn per second (faster turns are accelerated on purpose). |
| C99 | A display script does what it says, on the layers it says | partial | Partial because the code violates parts of it (counterexamples): unterminated last line dropped, restart sticks, a script started by an effect takes over a running one, undefined behaviour for lines without value or too long (hypothesis Good). |

## Defects found while modelling

Proved means a `_counterexample` theorem (or an equivalent characterisation) exists.

| where | what | property |
|-------|------|----------|
| config_file.h `Read` | a bare name or empty value swallows the next line | C05, proved |
| config_file.h float values | −1.5 is written `-2.-50`, read back −2 | C58, proved |
| current_preset.h | saving at a position beyond the end drops the preset; preset 0 of an empty list loads with number −1 | C06/C07 |
| string_piece.h `operator>=` | returns `cmp <= 0` | C11, proved |
| match_pattern | divides by zero without `*` | C12 |
| sorted_line_helper.h | duplicates found wrongly; first bytes ≥ 127 never found; shift overflow beyond 84 lines | C15, proved in part |
| circular_buffer.h | capacities not dividing 2^32 break at index wrap | C17 |
| linked_ptr.h `operator=(T*)` | keeps the ring pointers of the old target | C24, proved |
| box_filter.h `clear` | skips element 0 | C25, proved |
| looper.h | a callback unlinking itself and then its successor still calls the successor | C22/C23, proved |
| color.h `mix_clamped` | clamps to 65536, stored as 0 | C27, proved |
| color.h RGBA(RGBA_nod) | multiplies by alpha twice | C28, proved |
| ByteOrderStyle | undefined for blades with a white channel | C29, proved |
| SPI OutColor | brightest channel wraps to 0 for 118 values | proved |
| rotary.h | interrupts never attached; 8 bit step count wraps at 128 | C35, proved |
| button_base.h | slow polling repeats HELD_MEDIUM/HELD_LONG | C34, proved |
| ESP32 audio buffer | `clear` racing `FillBuffer` | C36, proved |
| sound_queue.h | `bool fadeout_len_` truncates the fade length | C39 |
| effect.h | `min_file_` starts at 127 | C40, proved |
| rle.h | match length 256 stored as 0 | C43, proved |
| rc6 decoder | odd info codes lost | C45, proved |
| IR receiver | slot off by one | C66, proved |
| transitions/base | progress wraps for long transitions | C46/C47, proved |
| smooth fade | steps back by one at 85 points | C46, proved |
| TrBlink | ends showing the first colour | C67, proved |
| TrLoopN | plays sequences / interrupted fades N+1 times | C69, proved |
| TrSequence | starts with the second transition | C68, proved |
| IntSelectX | negative selection uses unsigned `%` | C48, proved |
| ChangeSlowly, HoldPeak | never move when speed·Δt < 1000000 per frame | C50, proved |
| TriggerBase | gap > 1000 s runs past OFF | C51, proved |
| sub_blade.h ZZ | leaves its range unless rows are whole | C52, proved |
| sub_blade.h | no sub-blade covering LED 0: nothing ever displayed; two starting at 0: two primaries | C70, proved |
| power pins | two blades on one pin need the sharing template | C53, proved |
| ws2811_blade.h | style removed while waiting to begin a frame sends another blade's pixels; a blade deactivated while waiting blocks all others; ignition while waiting for the last frame stays dark | C71/C72, proved |
| menu_base.h | an empty menu divides by zero | C55, proved |
| mode.h / `EnterMenu` | entering the current mode again can never be left | C56, proved |
| SelectStyleMenu | preset and blade exchanged | C74, proved |
| SelectArgSmoothMode, SelectArgTime | pop two levels on select | — |
| TopMenuWrapper | restores the old font's volumes even if the font changed inside the menu | — |
| number speech | negative numbers ask for a recording that does not exist; `Say2Digits` overflows above 10^9 | C75, proved |
| serial.h | when memory runs out inside a line the tail is executed as a command | C76, proved |
| playwav.h | last frame never played; int overflow when resampling loud samples; frames over 8 bytes move bytes before the buffer; chunk length near 2^32 hangs; RIFF padding ignored; resampler state leaks between files | C77, proved |
| RFID reader | a stray start byte loses the frame | C78, proved |
| `chdir` | paths of more than 126 characters overflow `current_directory`; `a;;b` hides b; `;b` reads before the array | C79, proved |
| prop_base.h clashes | double clash when modifiers are cleared while one waits; a weaker later contact replaces a stronger one waiting; contact ignored after 2^32 ms; interrupt race loses strength | C80, proved |
| prop_base.h muting | volume set while muted lost on unmute; saved volume 0 while muted; stale `unmute_on_deactivation_`; silent ignition cancelled in pre-on stays muted | C81, proved |
| prop_base.h ignition | second `On` in pre-on loses the first blade; `Off` of a waiting blade turns off all; `SetPreset` in pre-on turns on all; `cd` in pre-on loses the ignition and counts as on for ever | C82, proved |
| gestures | a shake may be recognised from the zeroed history just after start | C83, proved |
| blade id | a measurement far from all entries chooses entry 0 | C84, proved |
| styles | LED power cut though pixels are lit: section covering the whole range, Cylon with black off colour, relit fire, spark tip with negative extension, nested delays | C85, proved |
| retraction delay | a negative delay never lets the style retract | C86, proved |
| i2cbus | a device that unlocks before it was given the lock makes a call through a null pointer | C87, proved |
| monoframe.h | drawing below the display is undefined behaviour; DEL reads beyond the font; `ClearRect` clears rows above; portrait layout is never chosen; `FlipY` on 64 bit words shifts out of range | C88, proved |
| vec3.h, quat.h | `RotateY` is not a rotation; `Quat / float` divides the vector by a truncated integer, so `invert` divides by zero for squared length < 1 | C90, proved |
| smooth_swing_v2.h | the OUT state does not wait for the volume to reach 0, so sounds are cut; separations of 0 hang; overlapping transitions jump | C91, proved |
| state_machine.h SLEEP | near the wrap of the clock a sleep ends at once or lasts 49 days | C92, proved |
| amplifier.h | stays on when an announcement is not seen by the main loop within 30 ms; `amp off` leaves it marked as on | C92, proved |
| blaster.h | auto fire goes on if the trigger is let go with another button held, and uses no ammunition; a power cut during auto fire blocks mode changes; Reload works without a clip | C93, proved |
| font | turning off during the pre-on with a monophonic font leaves pre-on, power on and hum playing for ever | C94, proved |
| font | an effect played in place of the hum while the saber is off (monophonic font) is followed by the hum for ever | C94, proved |
| font | with no free player a monophonic font cannot be turned off, the hum goes on | C94, proved |
| font | pre-on while the hum fades out, then cancelled: the hum stays for ever (polyphonic) | C94, proved |
| font | turning off the last blade that is on, if it is not blade 0, leaves the hum on; with a monophonic font turning off any one blade ends it | C94, proved |
| font | OFF_BLAST with a monophonic font leaves the font on: swings start the hum | C94, proved |
| font | "post off" is announced while the saber is on when it was turned on again before the retraction sound ended | C94, proved |
| scanning | a stray file such as `hum9x.wav` is not counted but raises the highest number, so files that do not exist are chosen | C40, proved |
| font | a font without a hum file uses a null pointer when turned on | C94, proved |
| saber buttons | a second quick AUX press fires twice (press and click); it also keeps the old drag direction | C96, proved |
| saber buttons | DUAL_POWER_BUTTONS: the swap turns both buttons into POWER | C96, proved |
| detonator | a pending explosion survives switching off and on; the switch is ignored while the button is held | C97, proved |
| smooth settings | opening volume, brightness, dimming or clash threshold without turning lowers it by 1% of the range (fromFixedWithMargin subtracts the margin, fixed_with_margin does not add it) | C98, proved |
| smooth settings | a click upwards at the top end jumps to near the bottom | C98, proved |
| display scripts | the last line of a script without an end of line is ignored | C99, proved |
| display scripts | do_restart_ is never reset: after one `restart` every later script restarts files that should go on | C99, proved |
| display scripts | a script started by an effect while another is read takes over its reader: files go to the wrong layer | C99, proved |
| display scripts | `time`, `file` or `A` without `=` and lines of 165 or more characters are undefined behaviour | C99, proved |
| stripes | delta*speed is an int product and overflows after a pause of 2.2 s at speed 1000 | C100, proved |
| stripes | slow speeds with frames of less than a ms never move | C100, proved |
| stripes | width 1: positions exceed 32 bits from LED 84 on | C100, proved |
| stripes | HardStripes: `mod - stripe.start` underflows at edges, dim stripes flash with full brightness; widths above 50000 are black | C100, proved |
| blasts | `N <= 32` reads blast_hump[32], one past its end | C101, proved |
| blasts | TrWave: N overflows for long times and gives a negative table index | C101, proved |
| bumps | `& 0x3f` should be `& 0x7f`: the bump has saw teeth | C101, proved |
| sparkles | the last LED is dark after every update, its light goes to the LED before it | C102, proved |
| sparkles | intensities of 20000 overflow a short | C102, proved |
| blinking | periods above 35 minutes overflow and lose their rhythm | C103, proved |
| ignition spark | fade times above 131 s overflow: the spark returns to full strength | C103, proved |
| beeper | a silence after a tone begins with what is left of the tone's half period | C104, proved |
| beeper | a beep of no length is never removed: no beep sounds any more | C104, proved |
| analog reads | AnalogReadPinF waits for ever if its first run finds the converter busy | C105, proved |
| analog reads | deleting AnalogReadPinF while it reads leaves the converter busy and a dangling pointer | C105, proved |
| analog reads | Done before Start: LSAnalogRead follows a null pointer | C105, proved |
| Cylon | the off speed is ignored | C106, proved |
| ColorCycle | fading to 100 percent the ring may be dark for a moment | C106, proved |
| booster | near the wrap around of the clock it goes off at once, or stays on for 49 days | C107, proved |
| booster | after the command `booster off` enabling does not switch it on | C107, proved |
| booster | if the main loop is missing for ten seconds it stays on | C107, proved |
| PWM blades | deactivated while on and activated again a blade believes to be on | C108, proved |
| PWM blades | an effect while off leaves the battery load flag set | C108, proved |
| fire | SPEED 0 reads before the array | C109, proved |
| lockup | a lockup begun again while its first beginning fades in jumps (9 % to 91 %) | C110, proved |
| lockup | LockupPulseF pulses in every frame of a lockup, not once | C110, proved |
| EffectSequence | the first effect changes nothing | C111, proved |
| ColorSelect | jumps if the selection changes during a transition | C111, proved |
| TrDoEffect | a LOCATION other than -1, 0, 1 is out of range of its conversion to 16 bits | C112, proved |
| EffectLocation::rnd | 65535 + random wraps around: places outside the asked range | C112, proved |
| ClashImpactF | divides by MAX, not MAX - MIN: never full when MIN is not 0 | C113, proved |
| Gradient | division by zero on a blade of one LED | C114, proved |
| Pixelate | on a blade of at most N LEDs the first colour is shown for ever | C114, proved |
| LocalizedClash | 71 minutes after a clash it is shown again | C114, proved |
| LengthFinder | turned below the first LED it jumps to the last | C114, proved |
| Preset menu | deleting a preset before the selected one shifts the selection to another preset | C116, proved |
| Preset menu | after deleting, "move down" puts the deleted preset back as the first | C116, proved |
| Preset menu | after deleting, changes to the current preset are not stored | C116, proved |
| SA22C | an automatic lockup ended by a button is not forgotten and ends a later manual lockup | C117, proved |
| SA22C | in battle mode the buttons do not trigger lightning block, as documented | C117, proved |
| SA22C | a second clash in battle mode begins a lockup which has not ended | C117, proved |
| SA22C | twisting the saber off keeps multi blast on | C117, proved |
| SA22C | double click and hold in the volume menu turns the saber on muted | C117, proved |
| SA22C | with one button volume up and down are swapped against the documentation; volume may exceed the configured one | C117, proved |
| Dual prop | a physical FIRE button becomes POWER when a blade is put on | C118, proved |
| I2C bus | woken without a request 24 days after the last | C119, proved |
| Pots | full volume and variation are never reached | C120, proved |
| Colour menu | CR LF is looked for at byte 8 instead of 7: files with CR LF give wrong colours, files with one line none | C121, proved |
| Colour menu | resetting a colour ignores the argument offset: it reads the preset number and beyond its end | C121, proved |
| Colour menu | cancelling the brightness makes a grey a full colour | C121, proved |
| SD card | mounted without need 49 days after the last use | C122, proved |
| Filter | the square root is wrong below 1 | C125, proved |
| LED drive | a warm white LED makes the blue level wrap to nearly full | C126, proved |
| Dimmed blade | overflows from 201 percent on; activates and deactivates its style twice | C126, proved |
| Savi blade | eight commands at once are all lost | C127, proved |
| Savi blade | a colour change while the blade is on is reverted by the next repeat | C127, proved |
| Argument counts | ARG_MAX_MIXED is 4 instead of negative | C128, proved |
| Argument counts | GET_ARG_MAX_HELPER2 is unused, so only arguments 0, 10 up to 90 are reported | C128, proved |
| Colour cycle | near its end the blade may go dark for a frame | C129, proved |
| Blade shortener | the length shrinks to the shortest blade ever seen | C129, proved |
| Style menu | settings are applied to the selected blade instead of the one being edited; out of bounds without a selection | C130, proved |
| Style menu | layer transparency opens the number menu; confirming an unchanged time shortens it | C130, proved |
| Touch buttons | a wait across the wrap of the microsecond clock leaves all touch buttons dead for 71 minutes | C131, proved |
| Output capture | an empty or missing line leaves the buffer without a terminating zero | C132, proved |
| Effect board | letting go of a hold trigger stops another trigger's sound; latching sounds never play | C134, proved |
| Stream scheduling | a request just before the flag is cleared is lost until the next read; a stream with nothing to give blocks others | C135, proved |
| Stream scheduling | destroying the oldest stream while others exist reads through null | C135, proved |
| Teensy heap test | inverted null test, so no string is ever freed | C136, proved |
| LSPtr | Free leaves the pointer, which is freed again later | C136, proved |
| POV style | with REPEAT and MIRROR the fraction is multiplied by itself instead of 2: wrong columns, and reads before the table | C137, proved |
| POV style | outside its window the last column stays instead of dark; at first the length is not set | C137, proved |
| POV style | a run over the end of a column is written beyond the buffer | C137, proved |
| File style | null pointer when the player goes away; the first picture file stays open for all later sounds | C138, proved |
| Show colour | starting a helper twice leaves a deleted style on the blade | C139, proved |
| Wave sampler | the wrap test is off by one: reads beyond the table once in 25 minutes | C140, proved |
| Display style | mirroring is off by one: odd rows of a folded strip are shifted, the last reads beyond the picture | C141, proved |
| Display style | three buffers are not enough for two styles; null pointer before the first frame | C141, proved |
| Micom | an answer given early is lost and closes the question; answers five to eight alone never open it | C142, proved |
| Caiwyn buttons | aux and aux2 begin a lockup in the menu, or within a lockup (three buttons) | C143, proved |
| Base prop | turning off during pre-on does not end a lockup begun then | C143, proved |
| Caiwyn buttons | the volume menu stays open when the blade is turned off otherwise; a wrong mode number in the file silences the player for good | C143, proved |
| Random blink | frequency 0 divides by zero; below zero blinks with every call | C147, proved |
| Volume level | overflows from 65536 on; more than full when boosted | C147, proved |
| PWM pins | giving up a refused pin stops the timer of another; a servo on the common timer has the frequency of lights | C148, proved |
| PWM pins, ESP32 | a pin turned off is never wired again; also `usecase == SERVO : 50 ? 500` (blades/pwm_pin.h:154) is not C++ | C148, proved (the latter read only) |
| Cycle counter, ESP32 | nested parts are counted twice | C149, proved |
| SD card test | names of 256 characters or more are written beyond the buffer | C150, proved |
| Pass-through | the second round of events (SB_On2 and so on) is not passed on | C151, proved |
| Charging style | a nearly empty battery leaves the blade dark; blending over 0.05 instead of 0.1 volts | C153, proved |
| Talkie | a speech rate of 37 or more never ends its frame, as the sample counter has eight bits | C154, proved |
| Infrared transmitter | `sending_` is never set to true, so a second message during the first cuts it off; more than 128 pulses lose the beginning | C155, proved |
| Pin tracking | declaring an input at the missing pin -1 never compiles | C156, proved |

Smaller findings not turned into theorems: config `Set()` uses a 32 byte buffer without a check; more style lines than blades write out of bounds; `CountWords` counts a trailing blank; `parse1hex` rejects `a`; `SetArgument` 512 byte limit; `CopyArguments(keep_after)` allocation size; `BitSet::nth` reads past the end when SIZE % 32 = 0; `RefPtr::operator!=` returns `==`; `EffectLocation::rnd` wraps; `BladeSet::fromBlade` shifts by ≥ 31; `blast_hump[32]` read out of bounds; `bump.h` mask/shift mismatch; `SubBladeWrapper::IsHandled` null check inverted; `DimBladeWrapper` does not forward overdrive; `MovePresetToBeginningEntry` does not compile when used; `SmoothClashThresholdMode` overrides a method that does not exist; cancelling the volume menu lowers the volume slightly (float); colors.txt is taken from the last directory of the path although settings prefer the first; saber.h double-click in MODE_OFF during pre-on is dead code; `StringPiece::operator>=` is `<=`. BMP palettes are ignored, so inverted images show inverted. The command `amp off` leaves `on_` set, so the next `Enable` does not switch the amplifier on. `following_` set by a pre-on stays when the font is changed; a fade of length zero divides zero by zero; `OFF_BLAST` keeps the fade time of an earlier retraction.

## Axioms per theorem

P = `propext`, Q = `Quot.sound`, C = `Classical.choice`, – = none.

* C01: `Store.C01_crash` PQC, `Store.C01_crash_checksum` PQC
* C02: `Store.C02_last_save` PQC, `Store.C02_settings` PQC
* C03: `Store.C03_string_roundtrip` PQC, `Store.C03_string_roundtrip_exact` PQC, `Store.C03_single_line` PQ
* C04: `Store.C04_int_roundtrip` PQC
* C05: `Store.C05_last_assignment_partial` PQC, `Store.C05_last_assignment_noend_partial` PQC, `Store.C05_bare_name_counterexample` PQ, `Store.C05_empty_value_counterexample` PQ, `Store.C05_names` PQC, `Store.C05_name_chars` PQC
* C06: `Store.C06_edit` PQC, `Store.C06_save_in_place` PQ, `Store.C06_delete` PQ, `Store.C06_duplicate` PQ, `Store.C06_durable` PQC, `Store.C06_position_beyond_end_drops` PQ
* C07: `Store.C07_load` PQC, `Store.C07_next` PQC, `Store.C07_previous` PQC, `Store.C07_builtin` PQC
* C08: `Store.C08_preset_roundtrip` PQC, `Store.C08_preset_eof` PQC
* C09: `Str.C09_set_get` PQ, `Str.C09_trailing_blank_counterexample` P
* C10: `Str.C10_words_exist_unique` PQ, `Str.C10_skip_words` PQ, `Str.C10_count_partial` PQ, `Str.C10_count_trailing_blank` PQ, `Str.C10_startswith` PQ, `Str.C10_endswith` PQ, `Str.C10_first_word` PQ, `Str.C10_cmpdir` PQC
* C100: `Style.Stripes.C100_pattern` PQC, `Style.Stripes.C100_wrap_unseen` PQ, `Style.Stripes.C100_rotate` PQC, `Style.Stripes.C100_range` PQC, `Style.Stripes.C100_no_gap` PQC, `Style.Stripes.C100_smooth` PQC, `Style.Stripes.C100_travel` PQC, `Style.Stripes.C100_defined` PQC, `Style.Stripes.C100_gap_counterexample` –, `Style.Stripes.C100_frozen_counterexample` PQ, `Style.Stripes.C100_fit_counterexample` P, `Style.Stripes.C100_hard_inside` PQC, `Style.Stripes.C100_edge_partial` PQC, `Style.Stripes.C100_edge_counterexample` –, `Style.Stripes.C100_wide_counterexample` PQ
* C101: `Func.Impact.C101_range` PQC, `Func.Impact.C101_quiet` PQC, `Func.Impact.C101_wave_partial` PQC, `Func.Impact.C101_crest` PQC, `Func.Impact.C101_beyond` PQC, `Func.Impact.C101_nearer_brighter` PQC, `Func.Impact.C101_symmetric` PQC, `Func.Impact.C101_table_counterexample` PQC, `Func.Impact.C101_peak_counterexample` PQC, `Func.Impact.C101_fadeout` PQ, `Func.Impact.C101_fadeout_range` PQC, `Func.Impact.C101_share` PQ, `Func.Impact.C101_trwave` PQC, `Func.Impact.C101_trspark` PQC, `Func.Impact.C101_offset` PQC, `Func.Impact.C101_overflow_counterexample` P, `Func.Impact.C101_bump_partial` PQ, `Func.Impact.C101_bump_line` PQ, `Func.Impact.C101_bump_steps` PQ, `Func.Impact.C101_bump_counterexample` P, `Func.Impact.C101_hump` PQC
* C102: `Func.Sparkle.C102_bounded` PQC, `Func.Sparkle.C102_range` PQC, `Func.Sparkle.C102_dies_out` PQC, `Func.Sparkle.C102_spread_partial` PQC, `Func.Sparkle.C102_first` PQC, `Func.Sparkle.C102_inside` PQC, `Func.Sparkle.C102_rate` PQ, `Func.Sparkle.C102_end_counterexample` PQC, `Func.Sparkle.C102_overflow_counterexample` –
* C103: `Func.Timing.C103_blink` PQ, `Func.Timing.C103_blink_restart` PQC, `Func.Timing.C103_blink_long_counterexample` –, `Func.Timing.C103_strobe` PQ, `Func.Timing.C103_strobe_restart` PQC, `Func.Timing.C103_time_since` PQ, `Func.Timing.C103_on_spark` PQ, `Func.Timing.C103_on_spark_counterexample` –, `Func.Timing.C103_slow_noise` PQC, `Func.Timing.C103_noise_steps` PQ, `Func.Timing.C103_brown_noise` PQC
* C104: `Audio.Beeper.C104_length` PQC, `Audio.Beeper.C104_chunks` PQC, `Audio.Beeper.C104_tone` PQC, `Audio.Beeper.C104_silence_partial` PQC, `Audio.Beeper.C104_order` PQC, `Audio.Beeper.C104_queue` PQ, `Audio.Beeper.C104_silence_counterexample` PQ, `Audio.Beeper.C104_empty_counterexample` PQ
* C105: `Input.Analog.C105_exclusive` PQ, `Input.Analog.C105_own` PQ, `Input.Analog.C105_finishes` PQ, `Input.Analog.C105_blocking` PQ, `Input.Analog.C105_hang_counterexample` P, `Input.Analog.C105_delete_counterexample` –, `Input.Analog.C105_null_counterexample` –, `Input.Analog.C105_range` PQC
* C106: `Style.Cycle.C106_mix` PQC, `Style.Cycle.C106_total` PQC, `Style.Cycle.C106_percent_partial` PQC, `Style.Cycle.C106_percent_counterexample` PQC, `Style.Cycle.C106_groups` PQC, `Style.Cycle.C106_ends` PQC, `Style.Cycle.C106_fade_on` PQC, `Style.Cycle.C106_fade_off` PQC, `Style.Cycle.C106_turns` PQC, `Style.Cycle.C106_speed` PQC, `Style.Cycle.C106_cylon_off_counterexample` PQC, `Style.Cycle.C106_cylon_on_partial` PQC, `Style.Cycle.C106_cylon_section` PQC, `Style.Cycle.C106_cylon_reach` PQC
* C107: `Blade.Booster.C107_hold` PQ, `Blade.Booster.C107_off_only_quiet` PQ, `Blade.Booster.C107_second_partial` PQC, `Blade.Booster.C107_second_counterexample` –, `Blade.Booster.C107_sleep_counterexample` PQ, `Blade.Booster.C107_command_counterexample` –, `Blade.Booster.C107_goes_off` PQC, `Blade.Booster.C107_wakes` PQ, `Blade.Booster.C107_starved_counterexample` –
* C108: `Blade.Simple.C108_lit` PQ, `Blade.Simple.C108_dark` P, `Blade.Simple.C108_idle` P, `Blade.Simple.C108_style_keeps` P, `Blade.Simple.C108_stale_counterexample` –, `Blade.Simple.C108_load_partial` P, `Blade.Simple.C108_load_counterexample` –
* C109: `Style.Fire.C109_safe` PQC, `Style.Fire.C109_speed_counterexample` P, `Style.Fire.C109_bounded` PQC, `Style.Fire.C109_dies` PQC, `Style.Fire.C109_dies_slow` PQC, `Style.Fire.C109_clash` PQC, `Style.Fire.C109_colours` PQC, `Style.Fire.C109_delay` PQ
* C11: `Str.C11_fold` P, `Str.C11_cmp` PQ, `Str.C11_preorder` PQC, `Str.C11_operators_partial` PQ, `Str.C11_ge_counterexample` –
* C110: `Style.Lockup.C110_shown` PQ, `Style.Lockup.C110_settled` PQ, `Style.Lockup.C110_transparent` PQ, `Style.Lockup.C110_settles` PQ, `Style.Lockup.C110_continuous_partial` P, `Style.Lockup.C110_jump_counterexample` PQC, `Style.Lockup.C110_once` PQ, `Style.Lockup.C110_shape` PQ, `Style.Lockup.C110_pulse_counterexample` PQC
* C111: `Style.Choose.C111_pick` PQ, `Style.Choose.C111_mix` PQ, `Style.Choose.C111_mix_ends` PQ, `Style.Choose.C111_sequence_partial` PQ, `Style.Choose.C111_sequence_counterexample` PQC, `Style.Choose.C111_select` PQ, `Style.Choose.C111_select_begin` PQ, `Style.Choose.C111_select_counterexample` PQC, `Style.Choose.C111_mod` PQ, `Style.Choose.C111_sync` PQ, `Style.Choose.C111_sync_winner` PQ
* C112: `Style.MultiEffect.C112_once` PQ, `Style.MultiEffect.C112_inner` PQ, `Style.MultiEffect.C112_location_partial` PQC, `Style.MultiEffect.C112_location_counterexample` PQC, `Style.MultiEffect.C112_random` PQC, `Style.MultiEffect.C112_random_counterexample` –, `Style.MultiEffect.C112_multi` PQC, `Style.MultiEffect.C112_loop` PQC
* C113: `Func.Osc.C113_phase` PQC, `Func.Osc.C113_period` PQC, `Func.Osc.C113_index` PQC, `Func.Osc.C113_range` PQC, `Func.Osc.C113_reach` PQC, `Func.Osc.C113_table` PQC, `Func.Osc.C113_twist` PQC, `Func.Osc.C113_twist_shape` PQC, `Func.Osc.C113_scales` PQC, `Func.Osc.C113_clash_partial` PQC, `Func.Osc.C113_clash_counterexample` PQC, `Func.Osc.C113_marble` PQC, `Func.Osc.C113_marble_bound` PQC
* C114: `Style.SmallLayers.C114_gradient_partial` PQ, `Style.SmallLayers.C114_gradient_counterexample` PQ, `Style.SmallLayers.C114_pixelate_partial` PQ, `Style.SmallLayers.C114_pixelate_counterexample` PQ, `Style.SmallLayers.C114_clash` PQ, `Style.SmallLayers.C114_local_partial` PQ, `Style.SmallLayers.C114_local_counterexample` PQ, `Style.SmallLayers.C114_local_width` PQC, `Style.SmallLayers.C114_sequence` PQ, `Style.SmallLayers.C114_length` PQC, `Style.SmallLayers.C114_length_counterexample` PQC
* C115: `Audio.Say.C115_whole` PQ, `Audio.Say.C115_distinct` PQ, `Audio.Say.C115_sounds` PQ, `Audio.Say.C115_decimal` PQC, `Audio.Say.C115_battery` PQC
* C116: `Store.Menu.C116_up` PQC, `Store.Menu.C116_down` PQC, `Store.Menu.C116_delete` PQC, `Store.Menu.C116_insert` PQC, `Store.Menu.C116_selected` PQC, `Store.Menu.C116_never_empty` PQC, `Store.Menu.C116_delete_counterexample` P, `Store.Menu.C116_zombie_counterexample` P, `Store.Menu.C116_lost_counterexample` P
* C117: `Prop.Sa22c.C117_release` P, `Prop.Sa22c.C117_battle` PQC, `Prop.Sa22c.C117_clash` P, `Prop.Sa22c.C117_off` PQC, `Prop.Sa22c.C117_three_holds` P, `Prop.Sa22c.C117_swing` P, `Prop.Sa22c.C117_auto` PQ, `Prop.Sa22c.C117_volume` PQC, `Prop.Sa22c.C117_menu` PQ, `Prop.Sa22c.C117_steps` PQ, `Prop.Sa22c.C117_push` PQC, `Prop.Sa22c.C117_stale_counterexample` P, `Prop.Sa22c.C117_lightning_counterexample` PQC, `Prop.Sa22c.C117_twice_counterexample` P, `Prop.Sa22c.C117_twist_counterexample` P, `Prop.Sa22c.C117_menu_counterexample` P, `Prop.Sa22c.C117_doc_counterexample` P, `Prop.Sa22c.C117_volume_counterexample` –
* C118: `Prop.Dual.C118_blaster` PQC, `Prop.Dual.C118_names` PQ, `Prop.Dual.C118_not_stuck` PQC, `Prop.Dual.C118_fire_counterexample` P
* C119: `I2C.Bus.C119_ready` P, `I2C.Bus.C119_stays` PQC, `I2C.Bus.C119_wakes` PQC, `I2C.Bus.C119_sleeps` PQC, `I2C.Bus.C119_wakes_counterexample` PQC
* C12: `Str.C12_roundtrip` PQ, `Str.C12_sound` PQC, `Str.C12_buffer_exact` PQ, `Str.C12_no_star` PQ
* C120: `Input.Pots.C120_range` PQC, `Input.Pots.C120_rate` PQC, `Input.Pots.C120_second` PQC, `Input.Pots.C120_set` PQC, `Input.Pots.C120_full_counterexample` PQC
* C121: `Menu.ColorMenu.C121_file` PQC, `Menu.ColorMenu.C121_crlf_counterexample` P, `Menu.ColorMenu.C121_single_counterexample` PQ, `Menu.ColorMenu.C121_last_counterexample` P, `Menu.ColorMenu.C121_save` PQC, `Menu.ColorMenu.C121_reset_counterexample` PQ, `Menu.ColorMenu.C121_hue` PQC, `Menu.ColorMenu.C121_brightness_counterexample` PQC, `Menu.ColorMenu.C121_grey_counterexample` PQC, `Menu.ColorMenu.C121_gamma` PQC, `Menu.ColorMenu.C121_gamma_counterexample` PQC
* C122: `Common.House.C122_keep` PQ, `Common.House.C122_release` PQ, `Common.House.C122_usb` –, `Common.House.C122_try` PQ, `Common.House.C122_mounts` PQ, `Common.House.C122_wrap_counterexample` –
* C123: `Common.House.C123_count` PQC, `Common.House.C123_times` PQC, `Common.House.C123_end` PQ, `Common.House.C123_slow_counterexample` –
* C124: `Common.House.C124_rate` PQ, `Common.House.C124_off` PQ, `Common.House.C124_multiple` PQC, `Common.House.C124_due` PQ, `Common.House.C124_clock` PQ, `Common.House.C124_race_counterexample` –
* C125: `Audio.Filter.C125_stream` PQC, `Audio.Filter.C125_stable` PQC, `Audio.Filter.C125_unity` PQC, `Audio.Filter.C125_constant` PQC, `Audio.Filter.C125_ring` PQC, `Audio.Filter.C125_pow` PQ, `Audio.Filter.C125_sqrt` PQC, `Audio.Filter.C125_sqrt_counterexample` PQC, `Audio.Filter.C125_gain` PQC
* C126: `Blade.Drive.C126_select` PQ, `Blade.Drive.C126_white` PQC, `Blade.Drive.C126_white_counterexample` –, `Blade.Drive.C126_current` PQC, `Blade.Drive.C126_protect` PQC, `Blade.Drive.C126_antitone` PQC, `Blade.Drive.C126_pwm` PQC, `Blade.Drive.C126_dim` PQC, `Blade.Drive.C126_dim_counterexample` PQC, `Blade.Drive.C126_twice_counterexample` –
* C127: `Blade.Savi.C127_decode` PQ, `Blade.Savi.C127_stream` PQC, `Blade.Savi.C127_sent` –, `Blade.Savi.C127_call` PQC, `Blade.Savi.C127_drain` PQC, `Blade.Savi.C127_overrun_counterexample` P, `Blade.Savi.C127_colour` PQC, `Blade.Savi.C127_alive` PQ, `Blade.Savi.C127_repeat_counterexample` P, `Blade.Savi.C127_repeat_partial` –
* C128: `Style.ArgMax.C128_gcd` PQ, `Style.ArgMax.C128_multiple` PQC, `Style.ArgMax.C128_mixed_counterexample` PQ, `Style.ArgMax.C128_zero_counterexample` PQ, `Style.ArgMax.C128_asked_partial` PQ, `Style.ArgMax.C128_asked_counterexample` PQ
* C129: `Transition.Cycle.C129_arc` PQC, `Transition.Cycle.C129_bounds` PQC, `Transition.Cycle.C129_place` PQC, `Transition.Cycle.C129_fraction_partial` PQC, `Transition.Cycle.C129_dark_counterexample` PQC, `Transition.Cycle.C129_short` PQC, `Transition.Cycle.C129_shrinks_counterexample` P
* C13: `Str.C13_get` PQ, `Str.C13_get_nonpos` PQ, `Str.C13_shift` PQ, `Str.C13_wrapper` PQ
* C130: `Menu.StyleEdit.C130_apply_partial` PQ, `Menu.StyleEdit.C130_apply_counterexample` PQ, `Menu.StyleEdit.C130_all` PQC, `Menu.StyleEdit.C130_unselected_counterexample` P, `Menu.StyleEdit.C130_reset_counterexample` P, `Menu.StyleEdit.C130_selected` P, `Menu.StyleEdit.C130_kind` PQ, `Menu.StyleEdit.C130_alpha_counterexample` –, `Menu.StyleEdit.C130_time` PQC, `Menu.StyleEdit.C130_time_counterexample` PQC
* C131: `Input.Touch.C131_turns` PQ, `Input.Touch.C131_pushed` PQ, `Input.Touch.C131_fair` PQ, `Input.Touch.C131_ends` PQ, `Input.Touch.C131_hang_counterexample` PQ
* C132: `Common.Output.C132_line` PQ, `Common.Output.C132_line_counterexample` PQ, `Common.Output.C132_next` PQC, `Common.Output.C132_walk` PQC
* C133: `Common.LoopCount.C133_rate` PQC, `Common.LoopCount.C133_small` PQC
* C134: `Prop.AudioFx.C134_one` PQC, `Prop.AudioFx.C134_press` PQ, `Prop.AudioFx.C134_release_counterexample` P, `Prop.AudioFx.C134_latch_counterexample` P
* C135: `Audio.Work.C135_neediest` PQ, `Audio.Work.C135_full` PQC, `Audio.Work.C135_starve_counterexample` PQ, `Audio.Work.C135_once` P, `Audio.Work.C135_served_partial` PQ, `Audio.Work.C135_lost_counterexample` P, `Audio.Work.C135_locked_counterexample` –, `Audio.Work.C135_destroy_partial` PQ, `Audio.Work.C135_destroy_counterexample` P
* C136: `Common.Owned.C136_owned` PQC, `Common.Owned.C136_no_leak` PQC, `Common.Owned.C136_free_counterexample` PQC, `Common.Owned.C136_teensy_counterexample` PQ
* C137: `Style.Pov.C137_decode` PQC, `Style.Pov.C137_overrun_counterexample` PQ, `Style.Pov.C137_tool_partial` PQC, `Style.Pov.C137_window` PQC, `Style.Pov.C137_repeat` PQC, `Style.Pov.C137_mirror_partial` PQC, `Style.Pov.C137_mirror_counterexample` PQC, `Style.Pov.C137_before_counterexample` PQC, `Style.Pov.C137_rows` PQ, `Style.Pov.C137_outside_counterexample` PQC
* C138: `Style.FromFile.C138_still` PQ, `Style.FromFile.C138_frame` PQ, `Style.FromFile.C138_sync` PQ, `Style.FromFile.C138_restart_counterexample` –, `Style.FromFile.C138_player_counterexample` PQ, `Style.FromFile.C138_stale_counterexample` PQ, `Style.FromFile.C138_pixels` PQ
* C139: `Style.ShowColor.C139_shown` P, `Style.ShowColor.C139_restore` PQ, `Style.ShowColor.C139_again_counterexample` PQ, `Style.ShowColor.C139_preset_counterexample` PQ
* C14: `Str.BitSet.C14_empty` PQ, `Str.BitSet.C14_get` PQC, `Str.BitSet.C14_set` PQC, `Str.BitSet.C14_clear` PQC, `Str.BitSet.C14_popcount` PQC, `Str.BitSet.C14_next` PQC, `Str.BitSet.C14_prev` PQC, `Str.BitSet.C14_nth` PQC, `Str.BitSet.C14_nth_out_of_bounds` PQC, `Str.BitSet.C14_shift` PQC, `Str.BitSet.C14_history` PQC
* C140: `Audio.Synth.C140_position` PQ, `Audio.Synth.C140_index_partial` PQ, `Audio.Synth.C140_end_counterexample` PQ, `Audio.Synth.C140_sample` PQC
* C141: `Style.Display.C141_rows_partial` PQ, `Style.Display.C141_folded_partial` PQ, `Style.Display.C141_folded_counterexample` PQC, `Style.Display.C141_turned_counterexample` P, `Style.Display.C141_colors` PQC, `Style.Display.C141_whole` PQC, `Style.Display.C141_early_counterexample` –, `Style.Display.C141_three_counterexample` PQ
* C142: `Prop.Micom.C142_uncut` PQ, `Prop.Micom.C142_ask` PQ, `Prop.Micom.C142_answer` P, `Prop.Micom.C142_early_counterexample` P, `Prop.Micom.C142_five_counterexample` PQ
* C143: `Prop.Caiwyn.C143_volume` PQC, `Prop.Caiwyn.C143_turn` PQ, `Prop.Caiwyn.C143_turn_counterexample` PQ, `Prop.Caiwyn.C143_menu` P, `Prop.Caiwyn.C143_menu_counterexample` P, `Prop.Caiwyn.C143_lockup` P, `Prop.Caiwyn.C143_release` P, `Prop.Caiwyn.C143_release_counterexample` PQ, `Prop.Caiwyn.C143_idle_counterexample` P, `Prop.Caiwyn.C143_mode` PQ, `Prop.Caiwyn.C143_mode_counterexample` PQC, `Prop.Caiwyn.C143_rotate` PQ, `Prop.Caiwyn.C143_ends` P, `Prop.Caiwyn.C143_toggle` P, `Prop.Caiwyn.C143_choose` PQ
* C144: `Input.FastButton.C144_served` PQ, `Input.FastButton.C144_no_ghost` PQ, `Input.FastButton.C144_during` –, `Input.FastButton.C144_bounce_counterexample` PQ
* C145: `Blade.FastLed.C145_power` P, `Blade.FastLed.C145_disable` P, `Blade.FastLed.C145_keep` P, `Blade.FastLed.C145_rate` PQ
* C146: `Str.ByteArray.C146_concat` PQ, `Str.ByteArray.C146_number` PQC, `Str.ByteArray.C146_number_inj` PQC, `Str.ByteArray.C146_string` PQ, `Str.ByteArray.C146_zero_counterexample` PQ
* C147: `Func.Levels.C147_values` PQ, `Func.Levels.C147_patterns` PQC, `Func.Levels.C147_hold` PQ, `Func.Levels.C147_rate` PQC, `Func.Levels.C147_zero_counterexample` –, `Func.Levels.C147_negative_counterexample` PQ, `Func.Levels.C147_level` PQC, `Func.Levels.C147_level_counterexample` PQ
* C148: `Blade.Pwm.C148_running` PQC, `Blade.Pwm.C148_use` –, `Blade.Pwm.C148_servo_counterexample` PQ, `Blade.Pwm.C148_refused_counterexample` PQ, `Blade.Pwm.C148_duty` PQC, `Blade.Pwm.C148_duty_counterexample` –, `Blade.Pwm.C148_esp_partial` PQ, `Blade.Pwm.C148_esp_counterexample` –
* C149: `Common.Cycles.C149_own` PQ, `Common.Cycles.C149_sum` PQ, `Common.Cycles.C149_long_counterexample` PQ, `Common.Cycles.C149_esp_counterexample` PQ
* C15: `Str.C15_search_partial` PQC, `Str.C15_search_small` PQC, `Str.C15_get_partial` PQC, `Str.C15_session` PQC, `Str.C15_overflow` –, `Str.C15_duplicates_counterexample` –
* C150: `Common.SdTest.C150_paths_partial` PQC, `Common.SdTest.C150_overflow_counterexample` PQC, `Common.SdTest.C150_counts` PQC
* C151: `Common.PassThrough.C151_once` PQC, `Common.PassThrough.C151_back` PQC, `Common.PassThrough.C151_second_counterexample` PQ, `Common.PassThrough.C151_two_counterexample` PQ
* C152: `Prop.ClashRec.C152_new` PQ, `Prop.ClashRec.C152_next` PQC, `Prop.ClashRec.C152_dump` PQ, `Prop.ClashRec.C152_stop` PQC, `Prop.ClashRec.C152_kept` P
* C153: `Style.Charging.C153_colour` PQ, `Style.Charging.C153_blend` PQC, `Style.Charging.C153_level` PQC, `Style.Charging.C153_bar` PQ, `Style.Charging.C153_range` PQC, `Style.Charging.C153_dark_counterexample` PQ, `Style.Charging.C153_cycle` PQ
* C154: `Audio.Talkie.C154_bits` PQC, `Audio.Talkie.C154_within` PQ, `Audio.Talkie.C154_order` P, `Audio.Talkie.C154_frame` PQ, `Audio.Talkie.C154_hang_counterexample` PQ
* C155: `IR.Stm32.C155_bounds` PQ, `IR.Stm32.C155_sent_partial` PQ, `IR.Stm32.C155_cut_off_counterexample` PQ, `IR.Stm32.C155_long_counterexample` PQ
* C156: `Common.Pins.C156_clash_partial` PQC, `Common.Pins.C156_missing_input_counterexample` PQC
* C16: `Str.C16_append` P, `Str.C16_append_ext` P, `Str.C16_append_total` PQ, `Str.C16_dirname_append` PQ, `Str.C16_dirname` PQ
* C17: `Str.Ring.C17_size` PQ, `Str.Ring.C17_clear` PQ, `Str.Ring.C17_write` PQ, `Str.Ring.C17_push` PQ, `Str.Ring.C17_read` PQ, `Str.Ring.C17_pop` PQ, `Str.Ring.C17_step` PQ, `Str.Ring.C17_fifo` PQ, `Str.Ring.C17_wrap_counterexample` P
* C18: `Num.C18_cyclint_order` PQC, `Num.C18_cyclint_deadline` PQC, `Num.C18_cyclint_elapsed` PQ, `Num.C18_cyclint_sharp` PQ
* C19: `Num.C19_mod_spec` PQ, `Num.C19_mod_no_overflow` PQC, `Num.C19_clamp_nearest` PQ, `Num.C19_clamp_samples` PQ
* C20: `Num.C20_range_overlap` PQC, `Num.C20_stripes_at_zero` PQ, `Num.C20_stripes_general` PQC, `Num.C20_stripe_points` PQ
* C21: `Num.C21_field_set_get` PQC, `Num.C21_field_or` PQC, `Num.C21_field_spill` PQ
* C22: `Reg.C22_round` PQC, `Reg.C22_round_dynamic` PQC, `Reg.C22_stale_counterexample` –
* C23: `Reg.C23_dispatch` PQC
* C24: `Reg.C24_linked_partial` PQC, `Reg.C24_raw_assign_counterexample` –, `Reg.C24_refcount` PQC
* C25: `Reg.C25_mean` PQ, `Reg.C25_partial_fill` PQ, `Reg.C25_small` P, `Reg.C25_clear_counterexample` –
* C26: `Num.C26_eventid_injective_partial` PQ, `Num.C26_eventid_none_power_collision` PQ, `Num.C26_eventid_none_collides_only_with_power` PQC
* C27: `Color.C27_mix` PQ, `Color.C27_mixcolors` PQ, `Color.C27_mixlayers` PQC, `Color.C27_clamped` PQ, `Color.C27_clamped_counterexample` –
* C28: `Color.C28_layers` PQC, `Color.C28_opaque_base` PQC, `Color.C28_transparent` PQ, `Color.C28_opaque` PQ, `Color.C28_stays_opaque` PQ, `Color.C28_fade` PQ, `Color.C28_double_multiply_counterexample` –, `Color.C28_flag` PQ
* C29: `Color.C29_order` PQC, `Color.C29_white` PQC, `Color.C29_inverse` P, `Color.C29_reorder` P, `Color.C29_reorder_white_counterexample` P
* C30: `Saber.C30_recent` PQC, `Saber.C30_bounds` PQC
* C31: `Saber.C31_state` PQC, `Saber.C31_isOn` PQC, `Saber.C31_silent` PQC, `Saber.C31_exact` PQC, `Saber.C31_notified` PQC, `Saber.C31_whole_saber` PQC, `Saber.C31_broadcast` PQC
* C32: `Saber.C32_reports` PQC, `Saber.C32_once` PQC, `Saber.C32_sees_new` PQC
* C33: `Input.C33_debounce` PQ, `Input.C33_split` PQ, `Input.C33_release` PQ, `Input.C33_min_release` PQ, `Input.C33_no_dropout` PQC
* C34: `Input.C34_grammar` PQC, `Input.C34_slow_calls_counterexample` –
* C35: `Input.C35_counts_partial` PQC, `Input.C35_direction` PQC, `Input.C35_bounce_partial` PQC, `Input.C35_resync` PQ, `Input.C35_setup_counterexample` PQ, `Input.C35_wrap_counterexample` P
* C36: `Audio.C36_fifo` PQ, `Audio.C36_no_loss` PQC, `Audio.C36_in_bounds` PQ, `Audio.C36_eof` PQC, `Audio.C36_read` PQ, `Audio.C36_parallel_clear_counterexample` PQ
* C37: `Audio.C37_ramp` PQ, `Audio.C37_no_overshoot` PQC, `Audio.C37_reaches` PQC, `Audio.C37_step_size` PQC, `Audio.C37_read` PQC, `Audio.C37_not_louder` PQC, `Audio.C37_fade_and_stop` PQC, `Audio.C37_limit` PQ
* C38: `Audio.C38_sqrt` PQC, `Audio.C38_mix` PQC, `Audio.C38_fits` PQC, `Audio.C38_monotone` PQC, `Audio.C38_silence` PQ
* C39: `Audio.Queue.C39_queue` PQC, `Audio.Queue.C39_order` PQ, `Audio.Queue.C39_starts` P, `Audio.Queue.C39_busy` PQC
* C40: `Sound.C40_scan` PQC, `Sound.C40_names` PQC, `Sound.C40_random` PQ, `Sound.C40_no_overrun` PQC, `Sound.C40_min_counterexample` PQ, `Sound.C40_counted` PQ, `Sound.C40_stray_counterexample` PQ
* C41: `Pqoi.C41_roundtrip` PQC, `Pqoi.C41_roundtrip_sequence` PQC, `Pqoi.C41_bytes` PQ
* C42: `Pqoi.C42_any_pieces` PQC, `Pqoi.C42_any_stream` PQ, `Pqoi.C42_overshoot` PQC, `Pqoi.C42_output_portions` PQ, `Pqoi.C42_rows` PQC
* C43: `Pov.C43_roundtrip_partial` PQC, `Pov.C43_size` PQC, `Pov.C43_bytes` PQC, `Pov.C43_counterexample` P
* C44: `IR.Nec.C44_roundtrip` PQC, `IR.Nec.C44_resync` PQC
* C45: `IR.Rc6.C45_frame` PQC, `IR.Rc6.C45_roundtrip_partial` PQC, `IR.Rc6.C45_resync` PQ, `IR.Rc6.C45_counterexample` –
* C46: `Transition.C46_final` PQC, `Transition.C46_defined` PQC, `Transition.C46_start` PQ, `Transition.C46_sequence` P, `Transition.C46_time` PQC, `Transition.C46_fade_partial` PQC, `Transition.C46_smooth_partial` PQC, `Transition.C46_wrap_counterexample` –, `Transition.C46_smooth_counterexample` –, `Transition.C46_blink_counterexample` –
* C47: `Transition.C47_wipe_partial` PQC, `Transition.C47_wipeIn_partial` PQC, `Transition.C47_centerWipe_partial` PQC, `Transition.C47_centerWipeIn_partial` PQC, `Transition.C47_counterexample` –
* C48: `Func.C48_range` PQC, `Func.C48_mult` PQC, `Func.C48_layer` PQC, `Func.C48_divide` PQC, `Func.C48_mod` PQ, `Func.C48_sum` P, `Func.C48_clamp` PQ, `Func.C48_scale` PQC, `Func.C48_invert` PQC, `Func.C48_select` PQ, `Func.C48_selectX_partial` PQC, `Func.C48_selectX_counterexample` PQC, `Func.C48_linear` PQC, `Func.C48_circular` PQC, `Func.C48_smoothStep` PQC, `Func.C48_step` PQC, `Func.C48_increment` PQ, `Func.C48_reset` PQC, `Func.C48_sequence` PQ
* C49: `Func.C49_once` PQC
* C50: `Func.C50_speed` PQC, `Func.C50_towards` PQC, `Func.C50_arrives` PQC, `Func.C50_peak` PQ, `Func.C50_fall` PQC, `Func.C50_hold` PQC, `Func.C50_stuck_counterexample` PQC
* C51: `Func.C51_envelope_partial` PQC, `Func.C51_range` PQC, `Func.C51_gap_counterexample` –
* C52: `Blade.C52_own` PQC, `Blade.C52_disjoint` PQC, `Blade.C52_columns` PQC, `Blade.C52_zz_counterexample` –
* C53: `Blade.Pin.C53_shared` PQC, `Blade.Pin.C53_released` PQC, `Blade.Pin.C53_unshared_counterexample` –
* C54: `Blade.C54_active` PQC, `Blade.C54_inactive` PQC, `Blade.C54_ends` PQC
* C55: `Menu.C55_walk` PQ, `Menu.C55_step` PQ, `Menu.C55_stale` PQ, `Menu.C55_entries` PQ, `Menu.C55_select` PQ, `Menu.C55_empty_counterexample` –
* C56: `Menu.Stack.C56_stack` PQ, `Menu.Stack.C56_hierarchy` PQ, `Menu.Stack.C56_return` PQ, `Menu.Stack.C56_callbacks` PQC, `Menu.Stack.C56_twice_counterexample` PQ
* C57: `Pqoi.C57_alpha_roundtrip` PQC, `Pqoi.C57_alpha_roundtrip_exact` PQC, `Pqoi.C57_blend` PQC
* C58: `Store.C58_value_roundtrip_partial` PQC, `Store.C58_negative_counterexample` PQ
* C59: `Str.C59_reset` PQC, `Str.C59_copy` PQC, `Str.C59_copy_list` PQC, `Str.C59_copy_colors` PQC, `Str.C59_copy_after_partial` PQC, `Str.C59_copy_after_overflow` –
* C60: `Color.C60_waveform` PQ
* C61: `Color.C61_rotate` PQC, `Color.C61_direction` PQC
* C62: `Color.C62_dither` PQ, `Color.C62_average` PQC
* C63: `Color.C63_select` PQC, `Color.C63_select_fits` PQC, `Color.C63_spi_partial` PQC, `Color.C63_spi_counterexample` P
* C64: `Input.C64_latch` P, `Input.C64_alternate` PQ, `Input.C64_votes` PQ, `Input.C64_eleven` PQ
* C65: `IR.Blaster.C65_roundtrip` PQC, `IR.Blaster.C65_no_false_hit` PQC
* C66: `IR.Receiver.C66_delivery_partial` PQ, `IR.Receiver.C66_time` PQ, `IR.Receiver.C66_counterexample` P
* C67: `Transition.C67_plays` PQC, `Transition.C67_timed_partial` PQC, `Transition.C67_counterexample` –, `Transition.C67_interrupted_counterexample` –
* C68: `Transition.C68_select` PQC, `Transition.C68_sequence` PQC, `Transition.C68_counterexample` –
* C69: `Transition.C69_layer` P, `Transition.C69_idle` –
* C70: `Blade.C70_primary` PQC, `Blade.C70_frame` PQC, `Blade.C70_drive` PQC, `Blade.C70_all` PQC, `Blade.C70_counterexample` –
* C71: `Blade.Ws.C71_own` PQ, `Blade.Ws.C71_turn` PQ, `Blade.Ws.C71_nostyle_counterexample` PQ, `Blade.Ws.C71_stuck_counterexample` P
* C72: `Blade.Ws.C72_delay` PQC, `Blade.Ws.C72_off` PQ, `Blade.Ws.C72_on_partial` PQ, `Blade.Ws.C72_race_counterexample` P
* C73: `Menu.Setting.C73_cancel` PQ, `Menu.Setting.C73_select` PQC, `Menu.Setting.C73_length` PQC
* C74: `Menu.C74_keep_partial` PQC, `Menu.C74_counterexample` PQ
* C75: `Speech.C75_whole` PQC, `Speech.C75_talkie` PQC, `Speech.C75_two_digits` PQ, `Speech.C75_two_digits_counterexample` –, `Speech.C75_negative_counterexample` PQ
* C76: `Serial.C76_lines` PQC, `Serial.C76_safe` PQC, `Serial.C76_lost` PQC, `Serial.C76_memory_counterexample` P
* C77: `Audio.PlayWav.C77_play_partial` PQC, `Audio.PlayWav.C77_align` PQC, `Audio.PlayWav.C77_last_counterexample` P, `Audio.PlayWav.C77_loud_counterexample` P, `Audio.PlayWav.C77_memory_counterexample` P, `Audio.PlayWav.C77_hang_counterexample` P, `Audio.PlayWav.C77_padding_counterexample` P, `Audio.PlayWav.C77_leftover_counterexample` P
* C78: `Serial.Rfid.C78_frame` PQC, `Serial.Rfid.C78_only` PQC, `Serial.Rfid.C78_recover` PQC, `Serial.Rfid.C78_commands` PQC, `Serial.Rfid.C78_stray_counterexample` P
* C79: `Prop.SearchPath.C79_path` PQC, `Prop.SearchPath.C79_slash` P, `Prop.SearchPath.C79_overflow_counterexample` –, `Prop.SearchPath.C79_empty_counterexample` P, `Prop.SearchPath.C79_first_empty_counterexample` P
* C80: `Prop.Clash.C80_ignore` PQ, `Prop.Clash.C80_button` PQ, `Prop.Clash.C80_gap_partial` PQ, `Prop.Clash.C80_vibration` PQ, `Prop.Clash.C80_exact` PQ, `Prop.Clash.C80_held` PQ, `Prop.Clash.C80_mail` P, `Prop.Clash.C80_double_counterexample` –, `Prop.Clash.C80_weaker_counterexample` –, `Prop.Clash.C80_wrap_counterexample` –, `Prop.Clash.C80_race_counterexample` –
* C81: `Prop.Mute.C81_heard_partial` PQ, `Prop.Mute.C81_ignition` P, `Prop.Mute.C81_set_counterexample` –, `Prop.Mute.C81_reboot_counterexample` –, `Prop.Mute.C81_unmute_counterexample` –, `Prop.Mute.C81_preon_counterexample` –
* C82: `Prop.Ignition.C82_off` PQC, `Prop.Ignition.C82_preset` PQC, `Prop.Ignition.C82_ignite` PQC, `Prop.Ignition.C82_some` PQC, `Prop.Ignition.C82_second_counterexample` PQ, `Prop.Ignition.C82_cancel_counterexample` PQ, `Prop.Ignition.C82_preset_counterexample` PQ, `Prop.Ignition.C82_cd_counterexample` PQ
* C83: `Prop.Gesture.C83_twist` PQ, `Prop.Gesture.C83_shake` PQ, `Prop.Gesture.C83_clean` PQ, `Prop.Gesture.C83_rest` P, `Prop.Gesture.C83_start_counterexample` P
* C84: `Prop.BladeId.C84_closest` PQ, `Prop.BladeId.C84_bounds` PQ, `Prop.BladeId.C84_present` PQC, `Prop.BladeId.C84_rescan` PQ, `Prop.BladeId.C84_far_counterexample` –
* C85: `Style.C85_power_off_invisible_partial` PQC, `Style.C85_powers_off` PQC, `Style.C85_transition_powers_off` PQC, `Style.C85_linear_section_counterexample` PQC, `Style.C85_cylon_counterexample` PQC, `Style.C85_fire_counterexample` PQC, `Style.C85_spark_tip_counterexample` PQC, `Style.C85_nested_delays_counterexample` PQC
* C86: `Style.C86_ignition_delay` PQ, `Style.C86_retraction_delay_partial` PQ, `Style.C86_negative_retraction_counterexample` PQ
* C87: `I2C.C87_order` PQC, `I2C.C87_progress` PQC, `I2C.C87_answers` PQC, `I2C.C87_early_unlock_counterexample` –
* C88: `Display.C88_landscape` PQC, `Display.C88_layout` P, `Display.C88_draw` PQC, `Display.C88_text_partial` PQC, `Display.C88_shapes` PQC, `Display.C88_below_counterexample` PQC, `Display.C88_del_counterexample` PQ, `Display.C88_clear_counterexample` PQC, `Display.C88_portrait_counterexample` PQ, `Display.C88_flip_counterexample` PQ
* C89: `Motion.C89_least_squares` PQC, `Motion.C89_exact` PQC
* C90: `Motion.C90_rotation` PQ, `Motion.C90_compose` PQ, `Motion.C90_fromTo` PQC, `Motion.C90_euler` PQ, `Motion.C90_turns` PQ, `Motion.C90_mounting` PQC, `Motion.C90_bytes` PQC, `Motion.C90_down_bounded` PQC, `Motion.C90_down_converges` PQC, `Motion.C90_invert_partial` PQC, `Motion.C90_rotateY_counterexample` PQ, `Motion.C90_invert_counterexample` PQC
* C91: `Swing.C91_schedule` PQC, `Swing.C91_continuous` PQC, `Swing.C91_volumes` PQC, `Swing.C91_looped` PQC, `Swing.C91_hang_counterexample` PQC, `Swing.C91_cut_counterexample` PQC, `Swing.C91_overlap_counterexample` PQC
* C92: `Amp.C92_on` PQ, `Amp.C92_off_partial` PQC, `Amp.C92_sleep_partial` PQ, `Amp.C92_sleep_short_counterexample` –, `Amp.C92_sleep_long_counterexample` PQ, `Amp.C92_stuck_counterexample` PQC, `Amp.C92_command_counterexample` P
* C93: `Blaster.C93_ammo` PQ, `Blaster.C93_jam` PQ, `Blaster.C93_trigger` PQ, `Blaster.C93_auto_partial` PQ, `Blaster.C93_auto_counterexample` PQ, `Blaster.C93_burst_counterexample` PQ, `Blaster.C93_mode_counterexample` PQ, `Blaster.C93_clip_counterexample` PQ
* C94: `Font.C94_refs` PQC, `Font.C94_exclusive` PQC, `Font.C94_volume` PQC, `Font.C94_fade_in` PQC, `Font.C94_fade_out` PQC, `Font.C94_hum_partial` PQC, `Font.C94_silent_partial` PQC, `Font.C94_silence_partial` PQC, `Font.C94_cancel_counterexample` PQC, `Font.C94_effect_counterexample` PQC, `Font.C94_players_counterexample` PQC, `Font.C94_preon_counterexample` PQC, `Font.C94_blade_counterexample` PQC, `Font.C94_other_blade_counterexample` PQC, `Font.C94_blast_counterexample` PQC, `Font.C94_postoff_counterexample` PQC, `Font.C94_nohum_counterexample` PQC
* C95: `Prop.Battery.C95_low` PQC, `Prop.Battery.C95_reported` PQC, `Prop.Battery.C95_voltage` PQC, `Prop.Battery.C95_percent` PQC, `Prop.Battery.C95_warning` PQ, `Prop.Battery.C95_idle` PQ, `Prop.Battery.C95_apart` PQ, `Prop.Battery.C95_wrap_counterexample` PQC
* C96: `Prop.SaberButtons.C96_power_click` PQ, `Prop.SaberButtons.C96_power_long` PQ, `Prop.SaberButtons.C96_aux_click` PQ, `Prop.SaberButtons.C96_contact` PQ, `Prop.SaberButtons.C96_lockup` PQ, `Prop.SaberButtons.C96_aux_power` PQ, `Prop.SaberButtons.C96_lightning` PQ, `Prop.SaberButtons.C96_bump` PQ, `Prop.SaberButtons.C96_lockup_history` PQ, `Prop.SaberButtons.C96_release` PQ, `Prop.SaberButtons.C96_power` PQ, `Prop.SaberButtons.C96_muted` PQ, `Prop.SaberButtons.C96_both_held` PQ, `Prop.SaberButtons.C96_blasts_counterexample` –, `Prop.SaberButtons.C96_direction_counterexample` –, `Prop.SaberButtons.C96_dual_counterexample` –
* C97: `Prop.Detonator.C97_explodes_partial` PQ, `Prop.Detonator.C97_blows` PQ, `Prop.Detonator.C97_on_unarmed` P, `Prop.Detonator.C97_off_safe` P, `Prop.Detonator.C97_stale_counterexample` P, `Prop.Detonator.C97_switch_counterexample` –
* C98: `Menu.Twist.C98_tracks` PQC, `Menu.Twist.C98_returns` PQC, `Menu.Twist.C98_no_chatter` PQC, `Menu.Twist.C98_rests` PQC, `Menu.Twist.C98_wraps` PQC, `Menu.Twist.C98_wrap_returns` PQC, `Menu.Twist.C98_rails` PQC, `Menu.Twist.C98_ends` PQC, `Menu.Twist.C98_open_partial` PQC, `Menu.Twist.C98_open_counterexample` PQC, `Menu.Twist.C98_click_counterexample` PQC, `Menu.Twist.C98_range_counterexample` PQC
* C99: `Display.Script.C99_exact` PQC, `Display.Script.C99_finishes` PQC, `Display.Script.C99_layers` PQC, `Display.Script.C99_file` PQC, `Display.Script.C99_restart` PQC, `Display.Script.C99_restart_own` PQC, `Display.Script.C99_continues_partial` PQC, `Display.Script.C99_syntax` PQC, `Display.Script.C99_values` PQC, `Display.Script.C99_too_many` PQC, `Display.Script.C99_next` PQC, `Display.Script.C99_last_line_counterexample` PQC, `Display.Script.C99_sticky_counterexample` PQC, `Display.Script.C99_takeover_counterexample` PQC, `Display.Script.C99_undefined_counterexample` PQC
