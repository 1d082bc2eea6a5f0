{
 "claims": [
  {
   "property": "C01",
   "status": "proved",
   "theorems": [
    "Verif.Store.C01_crash",
    "Verif.Store.C01_crash_checksum"
   ],
   "note": "Byte-level model of the two alternating files; crash = any prefix of the byte writes. C01_crash needs no checksum assumption (earlier crashes in the history do not tear bytes 16..31 of the header, the last one may be anywhere); C01_crash_checksum allows torn headers in the whole history given that the checksum rejects incomplete files."
  },
  {
   "property": "C02",
   "status": "proved",
   "theorems": [
    "Verif.Store.C02_last_save",
    "Verif.Store.C02_settings"
   ],
   "note": "Any history of saves, crashes and restarts, then a save, then a load; C02_settings goes down to the variable values."
  },
  {
   "property": "C03",
   "status": "proved",
   "theorems": [
    "Verif.Store.C03_string_roundtrip",
    "Verif.Store.C03_string_roundtrip_exact",
    "Verif.Store.C03_single_line"
   ],
   "note": "Leading blanks are lost, as stated."
  },
  {
   "property": "C04",
   "status": "proved",
   "theorems": [
    "Verif.Store.C04_int_roundtrip"
   ],
   "note": ""
  },
  {
   "property": "C05",
   "status": "partial",
   "theorems": [
    "Verif.Store.C05_last_assignment_partial",
    "Verif.Store.C05_last_assignment_noend_partial",
    "Verif.Store.C05_bare_name_counterexample",
    "Verif.Store.C05_empty_value_counterexample",
    "Verif.Store.C05_names",
    "Verif.Store.C05_name_chars"
   ],
   "note": "Proved for all files of assignments, comments, install lines and lines with a character other than white space or '=' after the name. False for lines consisting of a bare name or of 'name=' without value: they swallow the next line (counterexamples proved)."
  },
  {
   "property": "C06",
   "status": "proved",
   "theorems": [
    "Verif.Store.C06_edit",
    "Verif.Store.C06_save_in_place",
    "Verif.Store.C06_delete",
    "Verif.Store.C06_duplicate",
    "Verif.Store.C06_durable",
    "Verif.Store.C06_position_beyond_end_drops"
   ],
   "note": "Positions behind the end of the list drop the preset (shown)."
  },
  {
   "property": "C07",
   "status": "proved",
   "theorems": [
    "Verif.Store.C07_load",
    "Verif.Store.C07_next",
    "Verif.Store.C07_previous",
    "Verif.Store.C07_builtin"
   ],
   "note": "For non-empty stored lists."
  },
  {
   "property": "C08",
   "status": "proved",
   "theorems": [
    "Verif.Store.C08_preset_roundtrip",
    "Verif.Store.C08_preset_eof"
   ],
   "note": ""
  },
  {
   "property": "C09",
   "status": "proved",
   "theorems": [
    "Verif.Str.C09_set_get",
    "Verif.Str.C09_trailing_blank_counterexample"
   ],
   "note": "For style strings without trailing blank and styles whose defaults are proper words, every argument number and value; the counterexample shows that a trailing blank moves the new argument one position on."
  },
  {
   "property": "C10",
   "status": "partial",
   "theorems": [
    "Verif.Str.C10_words_exist_unique",
    "Verif.Str.C10_skip_words",
    "Verif.Str.C10_count_partial",
    "Verif.Str.C10_count_trailing_blank",
    "Verif.Str.C10_startswith",
    "Verif.Str.C10_endswith",
    "Verif.Str.C10_first_word",
    "Verif.Str.C10_cmpdir"
   ],
   "note": "Everything except counting holds for all texts; counting is off by one for texts ending in a blank (proved as C10_count_trailing_blank)."
  },
  {
   "property": "C100",
   "status": "partial",
   "theorems": [
    "Verif.Style.Stripes.C100_pattern",
    "Verif.Style.Stripes.C100_wrap_unseen",
    "Verif.Style.Stripes.C100_rotate",
    "Verif.Style.Stripes.C100_range",
    "Verif.Style.Stripes.C100_no_gap",
    "Verif.Style.Stripes.C100_smooth",
    "Verif.Style.Stripes.C100_travel",
    "Verif.Style.Stripes.C100_defined",
    "Verif.Style.Stripes.C100_gap_counterexample",
    "Verif.Style.Stripes.C100_frozen_counterexample",
    "Verif.Style.Stripes.C100_fit_counterexample",
    "Verif.Style.Stripes.C100_hard_inside",
    "Verif.Style.Stripes.C100_edge_partial",
    "Verif.Style.Stripes.C100_edge_counterexample",
    "Verif.Style.Stripes.C100_wide_counterexample"
   ],
   "note": "Proved for frames and speeds within 32 bit products. The code fails outside: delta*speed overflows after 2.2 s at speed 1000, slow speeds with short frames never move, width 1 exceeds 32 bits at LED 84, HardStripes edges underflow (flash of full brightness) and widths above 50000 are black; each has a counterexample."
  },
  {
   "property": "C101",
   "status": "partial",
   "theorems": [
    "Verif.Func.Impact.C101_range",
    "Verif.Func.Impact.C101_quiet",
    "Verif.Func.Impact.C101_wave_partial",
    "Verif.Func.Impact.C101_crest",
    "Verif.Func.Impact.C101_beyond",
    "Verif.Func.Impact.C101_nearer_brighter",
    "Verif.Func.Impact.C101_symmetric",
    "Verif.Func.Impact.C101_table_counterexample",
    "Verif.Func.Impact.C101_peak_counterexample",
    "Verif.Func.Impact.C101_fadeout",
    "Verif.Func.Impact.C101_fadeout_range",
    "Verif.Func.Impact.C101_share",
    "Verif.Func.Impact.C101_trwave",
    "Verif.Func.Impact.C101_trspark",
    "Verif.Func.Impact.C101_offset",
    "Verif.Func.Impact.C101_overflow_counterexample",
    "Verif.Func.Impact.C101_bump_partial",
    "Verif.Func.Impact.C101_bump_line",
    "Verif.Func.Impact.C101_bump_steps",
    "Verif.Func.Impact.C101_bump_counterexample",
    "Verif.Func.Impact.C101_hump"
   ],
   "note": "Exact real arithmetic for the position; N = 32 excluded because blast_hump[32] is read out of bounds there (counterexample). Further counterexamples: a single blast never reaches 32768, TrWave's index overflows to a negative one, the bump is not monotone because of & 0x3f. OriginalBlastF and Bump::run are not modelled."
  },
  {
   "property": "C102",
   "status": "partial",
   "theorems": [
    "Verif.Func.Sparkle.C102_bounded",
    "Verif.Func.Sparkle.C102_range",
    "Verif.Func.Sparkle.C102_dies_out",
    "Verif.Func.Sparkle.C102_spread_partial",
    "Verif.Func.Sparkle.C102_first",
    "Verif.Func.Sparkle.C102_inside",
    "Verif.Func.Sparkle.C102_rate",
    "Verif.Func.Sparkle.C102_end_counterexample",
    "Verif.Func.Sparkle.C102_overflow_counterexample"
   ],
   "note": "Spreading is exact except at the far end: after an update the last LED is always dark and its light goes to the one before (counterexample); an intensity of 20000 overflows a short (counterexample)."
  },
  {
   "property": "C103",
   "status": "partial",
   "theorems": [
    "Verif.Func.Timing.C103_blink",
    "Verif.Func.Timing.C103_blink_restart",
    "Verif.Func.Timing.C103_blink_long_counterexample",
    "Verif.Func.Timing.C103_strobe",
    "Verif.Func.Timing.C103_strobe_restart",
    "Verif.Func.Timing.C103_time_since",
    "Verif.Func.Timing.C103_on_spark",
    "Verif.Func.Timing.C103_on_spark_counterexample",
    "Verif.Func.Timing.C103_slow_noise",
    "Verif.Func.Timing.C103_noise_steps",
    "Verif.Func.Timing.C103_brown_noise"
   ],
   "note": "Blinking for periods up to 35 minutes and sparks up to 131 s; beyond that the products overflow (counterexamples). Random numbers are inputs."
  },
  {
   "property": "C104",
   "status": "partial",
   "theorems": [
    "Verif.Audio.Beeper.C104_length",
    "Verif.Audio.Beeper.C104_chunks",
    "Verif.Audio.Beeper.C104_tone",
    "Verif.Audio.Beeper.C104_silence_partial",
    "Verif.Audio.Beeper.C104_order",
    "Verif.Audio.Beeper.C104_queue",
    "Verif.Audio.Beeper.C104_silence_counterexample",
    "Verif.Audio.Beeper.C104_empty_counterexample"
   ],
   "note": "Two defects, each with a counterexample: a silence begins with what is left of the tone's half period, and a beep of no length blocks the beeper for ever. Floating point conversion of frequency and duration is not modelled."
  },
  {
   "property": "C105",
   "status": "partial",
   "theorems": [
    "Verif.Input.Analog.C105_exclusive",
    "Verif.Input.Analog.C105_own",
    "Verif.Input.Analog.C105_finishes",
    "Verif.Input.Analog.C105_blocking",
    "Verif.Input.Analog.C105_hang_counterexample",
    "Verif.Input.Analog.C105_delete_counterexample",
    "Verif.Input.Analog.C105_null_counterexample",
    "Verif.Input.Analog.C105_range"
   ],
   "note": "Proved for the meant use (Start before Done, readers outlive their reads). Counterexamples: AnalogReadPinF hangs if its first run finds the converter busy; deleting it while reading leaves a dangling pointer and a busy converter; Done before Start leads to a null pointer."
  },
  {
   "property": "C106",
   "status": "partial",
   "theorems": [
    "Verif.Style.Cycle.C106_mix",
    "Verif.Style.Cycle.C106_total",
    "Verif.Style.Cycle.C106_percent_partial",
    "Verif.Style.Cycle.C106_percent_counterexample",
    "Verif.Style.Cycle.C106_groups",
    "Verif.Style.Cycle.C106_ends",
    "Verif.Style.Cycle.C106_fade_on",
    "Verif.Style.Cycle.C106_fade_off",
    "Verif.Style.Cycle.C106_turns",
    "Verif.Style.Cycle.C106_speed",
    "Verif.Style.Cycle.C106_cylon_off_counterexample",
    "Verif.Style.Cycle.C106_cylon_on_partial",
    "Verif.Style.Cycle.C106_cylon_section",
    "Verif.Style.Cycle.C106_cylon_reach"
   ],
   "note": "float is exact rational arithmetic; the sine is an input. Counterexamples: Cylon ignores its off speed; ColorCycle may be dark for a moment while fading to 100 percent."
  },
  {
   "property": "C107",
   "status": "partial",
   "theorems": [
    "Verif.Blade.Booster.C107_hold",
    "Verif.Blade.Booster.C107_off_only_quiet",
    "Verif.Blade.Booster.C107_second_partial",
    "Verif.Blade.Booster.C107_second_counterexample",
    "Verif.Blade.Booster.C107_sleep_counterexample",
    "Verif.Blade.Booster.C107_command_counterexample",
    "Verif.Blade.Booster.C107_goes_off",
    "Verif.Blade.Booster.C107_wakes",
    "Verif.Blade.Booster.C107_starved_counterexample"
   ],
   "note": "The second of waiting and switching off hold until the 32 bit clock wraps around; counterexamples: off at once near the wrap around, a sleep of 49 days across it, 'booster off' followed by Enable leaves it off, and a main loop missing for ten seconds leaves it on."
  },
  {
   "property": "C108",
   "status": "partial",
   "theorems": [
    "Verif.Blade.Simple.C108_lit",
    "Verif.Blade.Simple.C108_dark",
    "Verif.Blade.Simple.C108_idle",
    "Verif.Blade.Simple.C108_style_keeps",
    "Verif.Blade.Simple.C108_stale_counterexample",
    "Verif.Blade.Simple.C108_load_partial",
    "Verif.Blade.Simple.C108_load_counterexample"
   ],
   "note": "Counterexamples: a blade deactivated while on believes to be on when activated again; an effect while off leaves the load flag set (low battery limit 2.6 V instead of 3.0 V). PWM values themselves are C42 and the style is an input."
  },
  {
   "property": "C109",
   "status": "proved",
   "theorems": [
    "Verif.Style.Fire.C109_safe",
    "Verif.Style.Fire.C109_speed_counterexample",
    "Verif.Style.Fire.C109_bounded",
    "Verif.Style.Fire.C109_dies",
    "Verif.Style.Fire.C109_dies_slow",
    "Verif.Style.Fire.C109_clash",
    "Verif.Style.Fire.C109_colours",
    "Verif.Style.Fire.C109_delay"
   ],
   "note": "For SPEED of at least 1; with SPEED 0 the code reads before its array (counterexample). Random numbers are inputs."
  },
  {
   "property": "C11",
   "status": "partial",
   "theorems": [
    "Verif.Str.C11_fold",
    "Verif.Str.C11_cmp",
    "Verif.Str.C11_preorder",
    "Verif.Str.C11_operators_partial",
    "Verif.Str.C11_ge_counterexample"
   ],
   "note": "cmp is a total preorder on case-folded texts and five operators agree with it; operator>= of StringPiece is wrong in the code (C11_ge_counterexample)."
  },
  {
   "property": "C110",
   "status": "partial",
   "theorems": [
    "Verif.Style.Lockup.C110_shown",
    "Verif.Style.Lockup.C110_settled",
    "Verif.Style.Lockup.C110_transparent",
    "Verif.Style.Lockup.C110_settles",
    "Verif.Style.Lockup.C110_continuous_partial",
    "Verif.Style.Lockup.C110_jump_counterexample",
    "Verif.Style.Lockup.C110_once",
    "Verif.Style.Lockup.C110_shape",
    "Verif.Style.Lockup.C110_pulse_counterexample"
   ],
   "note": "No jumps unless a lockup begins (ends) again while its previous beginning (ending) is still running; then there is one (counterexample). LockupPulseF pulses in every frame instead of once (counterexample)."
  },
  {
   "property": "C111",
   "status": "partial",
   "theorems": [
    "Verif.Style.Choose.C111_pick",
    "Verif.Style.Choose.C111_mix",
    "Verif.Style.Choose.C111_mix_ends",
    "Verif.Style.Choose.C111_sequence_partial",
    "Verif.Style.Choose.C111_sequence_counterexample",
    "Verif.Style.Choose.C111_select",
    "Verif.Style.Choose.C111_select_begin",
    "Verif.Style.Choose.C111_select_counterexample",
    "Verif.Style.Choose.C111_mod",
    "Verif.Style.Choose.C111_sync",
    "Verif.Style.Choose.C111_sync_winner"
   ],
   "note": "Counterexamples: the first effect leaves EffectSequence at its first colour; ColorSelect jumps when the selection changes during a transition."
  },
  {
   "property": "C112",
   "status": "partial",
   "theorems": [
    "Verif.Style.MultiEffect.C112_once",
    "Verif.Style.MultiEffect.C112_inner",
    "Verif.Style.MultiEffect.C112_location_partial",
    "Verif.Style.MultiEffect.C112_location_counterexample",
    "Verif.Style.MultiEffect.C112_random",
    "Verif.Style.MultiEffect.C112_random_counterexample",
    "Verif.Style.MultiEffect.C112_multi",
    "Verif.Style.MultiEffect.C112_loop"
   ],
   "note": "Counterexamples: a LOCATION other than -1, 0, 1 is out of the range of its conversion; EffectLocation::rnd wraps around in 16 bits."
  },
  {
   "property": "C113",
   "status": "partial",
   "theorems": [
    "Verif.Func.Osc.C113_phase",
    "Verif.Func.Osc.C113_period",
    "Verif.Func.Osc.C113_index",
    "Verif.Func.Osc.C113_range",
    "Verif.Func.Osc.C113_reach",
    "Verif.Func.Osc.C113_table",
    "Verif.Func.Osc.C113_twist",
    "Verif.Func.Osc.C113_twist_shape",
    "Verif.Func.Osc.C113_scales",
    "Verif.Func.Osc.C113_clash_partial",
    "Verif.Func.Osc.C113_clash_counterexample",
    "Verif.Func.Osc.C113_marble",
    "Verif.Func.Osc.C113_marble_bound"
   ],
   "note": "float idealised as rationals. Counterexample: ClashImpactF divides by MAX instead of MAX-MIN, so full strength is never reached when MIN is not 0. The sine misses HIGH by one part in 32768. The phase of Sin and Saw is not initialised."
  },
  {
   "property": "C114",
   "status": "partial",
   "theorems": [
    "Verif.Style.SmallLayers.C114_gradient_partial",
    "Verif.Style.SmallLayers.C114_gradient_counterexample",
    "Verif.Style.SmallLayers.C114_pixelate_partial",
    "Verif.Style.SmallLayers.C114_pixelate_counterexample",
    "Verif.Style.SmallLayers.C114_clash",
    "Verif.Style.SmallLayers.C114_local_partial",
    "Verif.Style.SmallLayers.C114_local_counterexample",
    "Verif.Style.SmallLayers.C114_local_width",
    "Verif.Style.SmallLayers.C114_sequence",
    "Verif.Style.SmallLayers.C114_length",
    "Verif.Style.SmallLayers.C114_length_counterexample"
   ],
   "note": "Counterexamples: Gradient divides by zero on one LED and the tip is not quite the last colour; Pixelate freezes for ever on a blade of at most N LEDs; LocalizedClash shows a clash again when the clock has gone round (71 minutes); LengthFinder turned below the first LED jumps to the last."
  },
  {
   "property": "C115",
   "status": "proved",
   "theorems": [
    "Verif.Audio.Say.C115_whole",
    "Verif.Audio.Say.C115_distinct",
    "Verif.Audio.Say.C115_sounds",
    "Verif.Audio.Say.C115_decimal",
    "Verif.Audio.Say.C115_battery"
   ],
   "note": "Numbers from 0 (a negative number asks for a sound with negative index). float idealised as rationals."
  },
  {
   "property": "C116",
   "status": "partial",
   "theorems": [
    "Verif.Store.Menu.C116_up",
    "Verif.Store.Menu.C116_down",
    "Verif.Store.Menu.C116_delete",
    "Verif.Store.Menu.C116_insert",
    "Verif.Store.Menu.C116_selected",
    "Verif.Store.Menu.C116_never_empty",
    "Verif.Store.Menu.C116_delete_counterexample",
    "Verif.Store.Menu.C116_zombie_counterexample",
    "Verif.Store.Menu.C116_lost_counterexample"
   ],
   "note": "Counterexamples: deleting a preset before the selected one makes insert insert another one; after deleting, moving down puts the deleted preset back; changes made after deleting are lost."
  },
  {
   "property": "C117",
   "status": "partial",
   "theorems": [
    "Verif.Prop.Sa22c.C117_release",
    "Verif.Prop.Sa22c.C117_battle",
    "Verif.Prop.Sa22c.C117_clash",
    "Verif.Prop.Sa22c.C117_off",
    "Verif.Prop.Sa22c.C117_three_holds",
    "Verif.Prop.Sa22c.C117_swing",
    "Verif.Prop.Sa22c.C117_auto",
    "Verif.Prop.Sa22c.C117_volume",
    "Verif.Prop.Sa22c.C117_menu",
    "Verif.Prop.Sa22c.C117_steps",
    "Verif.Prop.Sa22c.C117_push",
    "Verif.Prop.Sa22c.C117_stale_counterexample",
    "Verif.Prop.Sa22c.C117_lightning_counterexample",
    "Verif.Prop.Sa22c.C117_twice_counterexample",
    "Verif.Prop.Sa22c.C117_twist_counterexample",
    "Verif.Prop.Sa22c.C117_menu_counterexample",
    "Verif.Prop.Sa22c.C117_doc_counterexample",
    "Verif.Prop.Sa22c.C117_volume_counterexample"
   ],
   "note": "Counterexamples: a stale automatic lockup ends a later manual one; no lightning block by button in battle mode, against the documentation; a second clash begins a lockup twice; twisting off keeps multi blast; the saber can be turned on, muted, in the volume menu; one button volume directions differ from the documentation; volume can exceed the configured one."
  },
  {
   "property": "C118",
   "status": "partial",
   "theorems": [
    "Verif.Prop.Dual.C118_blaster",
    "Verif.Prop.Dual.C118_names",
    "Verif.Prop.Dual.C118_not_stuck",
    "Verif.Prop.Dual.C118_fire_counterexample"
   ],
   "note": "Holds for buttons other than FIRE and MODE_SELECT; counterexample: a physical FIRE button becomes POWER."
  },
  {
   "property": "C119",
   "status": "partial",
   "theorems": [
    "Verif.I2C.Bus.C119_ready",
    "Verif.I2C.Bus.C119_stays",
    "Verif.I2C.Bus.C119_wakes",
    "Verif.I2C.Bus.C119_sleeps",
    "Verif.I2C.Bus.C119_wakes_counterexample"
   ],
   "note": "Non-Teensy boards. Counterexample: 24 days after the last request the bus is woken without a request."
  },
  {
   "property": "C12",
   "status": "proved",
   "theorems": [
    "Verif.Str.C12_roundtrip",
    "Verif.Str.C12_sound",
    "Verif.Str.C12_buffer_exact",
    "Verif.Str.C12_no_star"
   ],
   "note": "For every pattern with a star; without a star the matcher divides by zero (C12_no_star)."
  },
  {
   "property": "C120",
   "status": "partial",
   "theorems": [
    "Verif.Input.Pots.C120_range",
    "Verif.Input.Pots.C120_rate",
    "Verif.Input.Pots.C120_second",
    "Verif.Input.Pots.C120_set",
    "Verif.Input.Pots.C120_full_counterexample"
   ],
   "note": "float idealised as an ordered field, the exponential by its laws (real exponential shown to meet them). Counterexample: full volume and variation are never reached. DualPot not modelled."
  },
  {
   "property": "C121",
   "status": "partial",
   "theorems": [
    "Verif.Menu.ColorMenu.C121_file",
    "Verif.Menu.ColorMenu.C121_crlf_counterexample",
    "Verif.Menu.ColorMenu.C121_single_counterexample",
    "Verif.Menu.ColorMenu.C121_last_counterexample",
    "Verif.Menu.ColorMenu.C121_save",
    "Verif.Menu.ColorMenu.C121_reset_counterexample",
    "Verif.Menu.ColorMenu.C121_hue",
    "Verif.Menu.ColorMenu.C121_brightness_counterexample",
    "Verif.Menu.ColorMenu.C121_grey_counterexample",
    "Verif.Menu.ColorMenu.C121_gamma",
    "Verif.Menu.ColorMenu.C121_gamma_counterexample"
   ],
   "note": "Counterexamples: files with CR LF give wrong colours; a file with one line gives none; a last line without line feed is lost; reset reads the wrong argument; cancelling the brightness changes the saturation; cancelling a component may darken it."
  },
  {
   "property": "C122",
   "status": "partial",
   "theorems": [
    "Verif.Common.House.C122_keep",
    "Verif.Common.House.C122_release",
    "Verif.Common.House.C122_usb",
    "Verif.Common.House.C122_try",
    "Verif.Common.House.C122_mounts",
    "Verif.Common.House.C122_wrap_counterexample"
   ],
   "note": "Counterexample: 49 days after the last use the card is mounted without need."
  },
  {
   "property": "C123",
   "status": "proved",
   "theorems": [
    "Verif.Common.House.C123_count",
    "Verif.Common.House.C123_times",
    "Verif.Common.House.C123_end",
    "Verif.Common.House.C123_slow_counterexample"
   ],
   "note": "500 (N+3) < 2^32. With slower loops flashes may be missed (counterexample, outside of the claim). The pattern when not blinking is not modelled."
  },
  {
   "property": "C124",
   "status": "partial",
   "theorems": [
    "Verif.Common.House.C124_rate",
    "Verif.Common.House.C124_off",
    "Verif.Common.House.C124_multiple",
    "Verif.Common.House.C124_due",
    "Verif.Common.House.C124_clock",
    "Verif.Common.House.C124_race_counterexample"
   ],
   "note": "Counterexample: an interrupt between reading the activity and the clock is not seen, so the processor is slowed a moment after activity."
  },
  {
   "property": "C125",
   "status": "partial",
   "theorems": [
    "Verif.Audio.Filter.C125_stream",
    "Verif.Audio.Filter.C125_stable",
    "Verif.Audio.Filter.C125_unity",
    "Verif.Audio.Filter.C125_constant",
    "Verif.Audio.Filter.C125_ring",
    "Verif.Audio.Filter.C125_pow",
    "Verif.Audio.Filter.C125_sqrt",
    "Verif.Audio.Filter.C125_sqrt_counterexample",
    "Verif.Audio.Filter.C125_gain"
   ],
   "note": "Floats idealised as an ordered field; PO_sin, PO_cos and PO_tan not modelled. Counterexample: the square root is wrong below 1 (not used there)."
  },
  {
   "property": "C126",
   "status": "partial",
   "theorems": [
    "Verif.Blade.Drive.C126_select",
    "Verif.Blade.Drive.C126_white",
    "Verif.Blade.Drive.C126_white_counterexample",
    "Verif.Blade.Drive.C126_current",
    "Verif.Blade.Drive.C126_protect",
    "Verif.Blade.Drive.C126_antitone",
    "Verif.Blade.Drive.C126_pwm",
    "Verif.Blade.Drive.C126_dim",
    "Verif.Blade.Drive.C126_dim_counterexample",
    "Verif.Blade.Drive.C126_twice_counterexample"
   ],
   "note": "Counterexamples: a warm white LED makes blue wrap around; from 201 percent on dimming overflows; a style on a dimmed blade is activated twice."
  },
  {
   "property": "C127",
   "status": "partial",
   "theorems": [
    "Verif.Blade.Savi.C127_decode",
    "Verif.Blade.Savi.C127_stream",
    "Verif.Blade.Savi.C127_sent",
    "Verif.Blade.Savi.C127_call",
    "Verif.Blade.Savi.C127_drain",
    "Verif.Blade.Savi.C127_overrun_counterexample",
    "Verif.Blade.Savi.C127_colour",
    "Verif.Blade.Savi.C127_alive",
    "Verif.Blade.Savi.C127_repeat_counterexample",
    "Verif.Blade.Savi.C127_repeat_partial"
   ],
   "note": "For at most seven waiting commands. Counterexamples: eight commands at once are all lost; a colour changed while the blade is on is reverted by the next repeat."
  },
  {
   "property": "C128",
   "status": "partial",
   "theorems": [
    "Verif.Style.ArgMax.C128_gcd",
    "Verif.Style.ArgMax.C128_multiple",
    "Verif.Style.ArgMax.C128_mixed_counterexample",
    "Verif.Style.ArgMax.C128_zero_counterexample",
    "Verif.Style.ArgMax.C128_asked_partial",
    "Verif.Style.ArgMax.C128_asked_counterexample"
   ],
   "note": "For positive numbers with a common multiple below 2^31. Counterexamples: mixed kinds are reported as 4 settings; a selection of no values divides by zero; only arguments 0, 10 up to 90 are reported at all."
  },
  {
   "property": "C129",
   "status": "partial",
   "theorems": [
    "Verif.Transition.Cycle.C129_arc",
    "Verif.Transition.Cycle.C129_bounds",
    "Verif.Transition.Cycle.C129_place",
    "Verif.Transition.Cycle.C129_fraction_partial",
    "Verif.Transition.Cycle.C129_dark_counterexample",
    "Verif.Transition.Cycle.C129_short",
    "Verif.Transition.Cycle.C129_shrinks_counterexample"
   ],
   "note": "Floats idealised as rationals. Missing: when both ends fall on the same place the blade is dark (counterexample). A shortener never grows again (counterexample)."
  },
  {
   "property": "C13",
   "status": "proved",
   "theorems": [
    "Verif.Str.C13_get",
    "Verif.Str.C13_get_nonpos",
    "Verif.Str.C13_shift",
    "Verif.Str.C13_wrapper"
   ],
   "note": "Every argument string, number and shift."
  },
  {
   "property": "C130",
   "status": "partial",
   "theorems": [
    "Verif.Menu.StyleEdit.C130_apply_partial",
    "Verif.Menu.StyleEdit.C130_apply_counterexample",
    "Verif.Menu.StyleEdit.C130_all",
    "Verif.Menu.StyleEdit.C130_unselected_counterexample",
    "Verif.Menu.StyleEdit.C130_reset_counterexample",
    "Verif.Menu.StyleEdit.C130_selected",
    "Verif.Menu.StyleEdit.C130_kind",
    "Verif.Menu.StyleEdit.C130_alpha_counterexample",
    "Verif.Menu.StyleEdit.C130_time",
    "Verif.Menu.StyleEdit.C130_time_counterexample"
   ],
   "note": "Counterexamples: with a style of another blade selected that blade is changed; without a selection memory before the list is read; resetting colours does nothing without a selection; layer transparency gets the number menu; opening and confirming the time menu shortens any time."
  },
  {
   "property": "C131",
   "status": "partial",
   "theorems": [
    "Verif.Input.Touch.C131_turns",
    "Verif.Input.Touch.C131_pushed",
    "Verif.Input.Touch.C131_fair",
    "Verif.Input.Touch.C131_ends",
    "Verif.Input.Touch.C131_hang_counterexample"
   ],
   "note": "Hardware registers and the STM32 version not modelled. Counterexample: a turn begun just before the microsecond clock wraps leaves all touch buttons dead for 71 minutes."
  },
  {
   "property": "C132",
   "status": "partial",
   "theorems": [
    "Verif.Common.Output.C132_line",
    "Verif.Common.Output.C132_line_counterexample",
    "Verif.Common.Output.C132_next",
    "Verif.Common.Output.C132_walk"
   ],
   "note": "Counterexample: for an empty or missing line the buffer of the caller is left as it was, without a terminating zero."
  },
  {
   "property": "C133",
   "status": "proved",
   "theorems": [
    "Verif.Common.LoopCount.C133_rate",
    "Verif.Common.LoopCount.C133_small"
   ],
   "note": "Floats idealised as rationals; updates at which the clock shows exactly zero excluded."
  },
  {
   "property": "C134",
   "status": "partial",
   "theorems": [
    "Verif.Prop.AudioFx.C134_one",
    "Verif.Prop.AudioFx.C134_press",
    "Verif.Prop.AudioFx.C134_release_counterexample",
    "Verif.Prop.AudioFx.C134_latch_counterexample"
   ],
   "note": "Counterexamples: letting go of a hold trigger stops the sound of another; latching sounds never play."
  },
  {
   "property": "C135",
   "status": "partial",
   "theorems": [
    "Verif.Audio.Work.C135_neediest",
    "Verif.Audio.Work.C135_full",
    "Verif.Audio.Work.C135_starve_counterexample",
    "Verif.Audio.Work.C135_once",
    "Verif.Audio.Work.C135_served_partial",
    "Verif.Audio.Work.C135_lost_counterexample",
    "Verif.Audio.Work.C135_locked_counterexample",
    "Verif.Audio.Work.C135_destroy_partial",
    "Verif.Audio.Work.C135_destroy_counterexample"
   ],
   "note": "Requests after the last look and before the flag is cleared are missing (counterexample); so are requests while the card is locked (counterexample), a stream with nothing to give blocks the others (counterexample), and destroying the oldest stream reads through null (counterexample)."
  },
  {
   "property": "C136",
   "status": "partial",
   "theorems": [
    "Verif.Common.Owned.C136_owned",
    "Verif.Common.Owned.C136_no_leak",
    "Verif.Common.Owned.C136_free_counterexample",
    "Verif.Common.Owned.C136_teensy_counterexample"
   ],
   "note": "For the Proffieboard, without explicit Free and without assigning an object its own pointer. Counterexamples: on the Teensy nothing is ever freed; Free leaves the pointer to be freed again."
  },
  {
   "property": "C137",
   "status": "partial",
   "theorems": [
    "Verif.Style.Pov.C137_decode",
    "Verif.Style.Pov.C137_overrun_counterexample",
    "Verif.Style.Pov.C137_tool_partial",
    "Verif.Style.Pov.C137_window",
    "Verif.Style.Pov.C137_repeat",
    "Verif.Style.Pov.C137_mirror_partial",
    "Verif.Style.Pov.C137_mirror_counterexample",
    "Verif.Style.Pov.C137_before_counterexample",
    "Verif.Style.Pov.C137_rows",
    "Verif.Style.Pov.C137_outside_counterexample"
   ],
   "note": "Floats idealised as rationals. Missing: repeated with mirroring the columns are out of proportion and may be outside the table (counterexamples); outside the angles the blade does not go dark (counterexample); a piece beyond the end of a column is written beyond the buffer (counterexample); pictures the tool encodes wrongly (C43)."
  },
  {
   "property": "C138",
   "status": "partial",
   "theorems": [
    "Verif.Style.FromFile.C138_still",
    "Verif.Style.FromFile.C138_frame",
    "Verif.Style.FromFile.C138_sync",
    "Verif.Style.FromFile.C138_restart_counterexample",
    "Verif.Style.FromFile.C138_player_counterexample",
    "Verif.Style.FromFile.C138_stale_counterexample",
    "Verif.Style.FromFile.C138_pixels"
   ],
   "note": "Counterexamples: when the sound starts over a frame of its end is shown; when the player goes away a null pointer is read; the picture file of the first sound stays open for all later ones."
  },
  {
   "property": "C139",
   "status": "partial",
   "theorems": [
    "Verif.Style.ShowColor.C139_shown",
    "Verif.Style.ShowColor.C139_restore",
    "Verif.Style.ShowColor.C139_again_counterexample",
    "Verif.Style.ShowColor.C139_preset_counterexample"
   ],
   "note": "For well nested uses of different helper objects. Counterexamples: the same one started twice leaves a deleted style on the blade; changing the preset while a colour is shown brings back the style of the preset before."
  },
  {
   "property": "C14",
   "status": "proved",
   "theorems": [
    "Verif.Str.BitSet.C14_empty",
    "Verif.Str.BitSet.C14_get",
    "Verif.Str.BitSet.C14_set",
    "Verif.Str.BitSet.C14_clear",
    "Verif.Str.BitSet.C14_popcount",
    "Verif.Str.BitSet.C14_next",
    "Verif.Str.BitSet.C14_prev",
    "Verif.Str.BitSet.C14_nth",
    "Verif.Str.BitSet.C14_nth_out_of_bounds",
    "Verif.Str.BitSet.C14_shift",
    "Verif.Str.BitSet.C14_history"
   ],
   "note": "Every size and content. nth for an index that is not below the number of elements reads outside the array when the size is a multiple of 32 (C14_nth_out_of_bounds)."
  },
  {
   "property": "C140",
   "status": "partial",
   "theorems": [
    "Verif.Audio.Synth.C140_position",
    "Verif.Audio.Synth.C140_index_partial",
    "Verif.Audio.Synth.C140_end_counterexample",
    "Verif.Audio.Synth.C140_sample"
   ],
   "note": "Missing: when the steps sum to a whole number of turns the sample is read from beyond the table (counterexample: at any fixed pitch, once in 67108864 samples at the latest). How tables and pitches are computed from floats is not modelled."
  },
  {
   "property": "C141",
   "status": "partial",
   "theorems": [
    "Verif.Style.Display.C141_rows_partial",
    "Verif.Style.Display.C141_folded_partial",
    "Verif.Style.Display.C141_folded_counterexample",
    "Verif.Style.Display.C141_turned_counterexample",
    "Verif.Style.Display.C141_colors",
    "Verif.Style.Display.C141_whole",
    "Verif.Style.Display.C141_early_counterexample",
    "Verif.Style.Display.C141_three_counterexample"
   ],
   "note": "Counterexamples: on folded strips (the default) odd rows are shifted by one and the last reads beyond the picture; so do pictures turned upside down; with two styles the default of three buffers is not enough; drawing before the first frame reads through null."
  },
  {
   "property": "C142",
   "status": "partial",
   "theorems": [
    "Verif.Prop.Micom.C142_uncut",
    "Verif.Prop.Micom.C142_ask",
    "Verif.Prop.Micom.C142_answer",
    "Verif.Prop.Micom.C142_early_counterexample",
    "Verif.Prop.Micom.C142_five_counterexample"
   ],
   "note": "Turning on, presets and the track are not modelled. Counterexamples: answering before the question is said to its end closes it without playing anything; questions with only answers five to eight are never open."
  },
  {
   "property": "C143",
   "status": "partial",
   "theorems": [
    "Verif.Prop.Caiwyn.C143_volume",
    "Verif.Prop.Caiwyn.C143_turn",
    "Verif.Prop.Caiwyn.C143_turn_counterexample",
    "Verif.Prop.Caiwyn.C143_menu",
    "Verif.Prop.Caiwyn.C143_menu_counterexample",
    "Verif.Prop.Caiwyn.C143_lockup",
    "Verif.Prop.Caiwyn.C143_release",
    "Verif.Prop.Caiwyn.C143_release_counterexample",
    "Verif.Prop.Caiwyn.C143_idle_counterexample",
    "Verif.Prop.Caiwyn.C143_mode",
    "Verif.Prop.Caiwyn.C143_mode_counterexample",
    "Verif.Prop.Caiwyn.C143_rotate",
    "Verif.Prop.Caiwyn.C143_ends",
    "Verif.Prop.Caiwyn.C143_toggle",
    "Verif.Prop.Caiwyn.C143_choose"
   ],
   "note": "The colour menu, blade detection and presets are not modelled. Counterexamples: with three buttons and CAIWYN_BUTTON_LOCKUP aux and aux2 begin a lockup within the menu and within a lockup; a lockup begun during pre-on outlives the blade being turned off; the menu outlives it too and the dark hilt changes the volume; a mode number on the card that is none of the three stays for good and silences the player; with VOLUME below ten turns change nothing."
  },
  {
   "property": "C144",
   "status": "proved",
   "theorems": [
    "Verif.Input.FastButton.C144_served",
    "Verif.Input.FastButton.C144_no_ghost",
    "Verif.Input.FastButton.C144_during",
    "Verif.Input.FastButton.C144_bounce_counterexample"
   ],
   "note": "Reads and writes of the flag are taken as atomic. One click for each press does not hold (counterexample): presses before the loop comes by, or bounces, give one click."
  },
  {
   "property": "C145",
   "status": "proved",
   "theorems": [
    "Verif.Blade.FastLed.C145_power",
    "Verif.Blade.FastLed.C145_disable",
    "Verif.Blade.FastLed.C145_keep",
    "Verif.Blade.FastLed.C145_rate"
   ],
   "note": "What is drawn and the sharing of SPI pins are not modelled."
  },
  {
   "property": "C146",
   "status": "proved",
   "theorems": [
    "Verif.Str.ByteArray.C146_concat",
    "Verif.Str.ByteArray.C146_number",
    "Verif.Str.ByteArray.C146_number_inj",
    "Verif.Str.ByteArray.C146_string",
    "Verif.Str.ByteArray.C146_zero_counterexample"
   ],
   "note": "For strings without zero bytes; one with a zero byte is cut off there (counterexample)."
  },
  {
   "property": "C147",
   "status": "partial",
   "theorems": [
    "Verif.Func.Levels.C147_values",
    "Verif.Func.Levels.C147_patterns",
    "Verif.Func.Levels.C147_hold",
    "Verif.Func.Levels.C147_rate",
    "Verif.Func.Levels.C147_zero_counterexample",
    "Verif.Func.Levels.C147_negative_counterexample",
    "Verif.Func.Levels.C147_level",
    "Verif.Func.Levels.C147_level_counterexample"
   ],
   "note": "Missing: frequencies of zero divide by zero and those below zero blink with every call (counterexamples); volumes from 65536 on overflow and those beyond the loudest show more than full (counterexample)."
  },
  {
   "property": "C148",
   "status": "partial",
   "theorems": [
    "Verif.Blade.Pwm.C148_running",
    "Verif.Blade.Pwm.C148_use",
    "Verif.Blade.Pwm.C148_servo_counterexample",
    "Verif.Blade.Pwm.C148_refused_counterexample",
    "Verif.Blade.Pwm.C148_duty",
    "Verif.Blade.Pwm.C148_duty_counterexample",
    "Verif.Blade.Pwm.C148_esp_partial",
    "Verif.Blade.Pwm.C148_esp_counterexample"
   ],
   "note": "For pins that can be used for PWM, given up as often as taken; use counts do not wrap. The ESP32 claim is for pins only being turned on. Counterexamples: a servo on the common timer gets the frequency of lights; giving up a pin that was refused stops the timer of another; full value is 32767 of 32768; on the ESP32 a pin turned off stays dark for good."
  },
  {
   "property": "C149",
   "status": "partial",
   "theorems": [
    "Verif.Common.Cycles.C149_own",
    "Verif.Common.Cycles.C149_sum",
    "Verif.Common.Cycles.C149_long_counterexample",
    "Verif.Common.Cycles.C149_esp_counterexample"
   ],
   "note": "For parts with less than 2^32 cycles of their own, and not on the ESP32 (counterexamples for both). Entering and leaving take no time in the model."
  },
  {
   "property": "C15",
   "status": "partial",
   "theorems": [
    "Verif.Str.C15_search_partial",
    "Verif.Str.C15_search_small",
    "Verif.Str.C15_get_partial",
    "Verif.Str.C15_session",
    "Verif.Str.C15_overflow",
    "Verif.Str.C15_duplicates_counterexample"
   ],
   "note": "Termination and the right line for every list of lines that differ up to case, in every order, every query history; up to 27 lines without further condition, beyond that unless the step width overflows (C15_overflow: it can). Missing: lists with duplicate lines, for which the code is wrong (C15_duplicates_counterexample)."
  },
  {
   "property": "C150",
   "status": "partial",
   "theorems": [
    "Verif.Common.SdTest.C150_paths_partial",
    "Verif.Common.SdTest.C150_overflow_counterexample",
    "Verif.Common.SdTest.C150_counts"
   ],
   "note": "For whole names of at most 255 characters, of directories with the slash; longer ones are written beyond the buffer (counterexample). Printing is not modelled."
  },
  {
   "property": "C151",
   "status": "partial",
   "theorems": [
    "Verif.Common.PassThrough.C151_once",
    "Verif.Common.PassThrough.C151_back",
    "Verif.Common.PassThrough.C151_second_counterexample",
    "Verif.Common.PassThrough.C151_two_counterexample"
   ],
   "note": "For the first round of events, with wrappers put in front of listeners that are in the list. Counterexamples: the second round is not passed on; two wrappers in front of one font pass on everything twice. Motion, which the wrappers handle themselves, is not modelled."
  },
  {
   "property": "C152",
   "status": "proved",
   "theorems": [
    "Verif.Prop.ClashRec.C152_new",
    "Verif.Prop.ClashRec.C152_next",
    "Verif.Prop.ClashRec.C152_dump",
    "Verif.Prop.ClashRec.C152_stop",
    "Verif.Prop.ClashRec.C152_kept"
   ],
   "note": "Files are known by their numbers: the making of the name is not modelled. The speech and buttons between recording and saving are not modelled."
  },
  {
   "property": "C153",
   "status": "partial",
   "theorems": [
    "Verif.Style.Charging.C153_colour",
    "Verif.Style.Charging.C153_blend",
    "Verif.Style.Charging.C153_level",
    "Verif.Style.Charging.C153_bar",
    "Verif.Style.Charging.C153_range",
    "Verif.Style.Charging.C153_dark_counterexample",
    "Verif.Style.Charging.C153_cycle"
   ],
   "note": "Voltages are whole millivolts and floating point is exact; the sine is an input. Counterexample: a battery low enough leaves the whole blade dark. Colours are blended over 0.05 volts, not the 0.1 of the comment."
  },
  {
   "property": "C154",
   "status": "partial",
   "theorems": [
    "Verif.Audio.Talkie.C154_bits",
    "Verif.Audio.Talkie.C154_within",
    "Verif.Audio.Talkie.C154_order",
    "Verif.Audio.Talkie.C154_frame",
    "Verif.Audio.Talkie.C154_hang_counterexample"
   ],
   "note": "The frame length is proved while the length fits the eight bit counter (rate up to 36). Counterexample: with a larger rate the frame never ends. The synthesis filter and the resampling are not modelled."
  },
  {
   "property": "C155",
   "status": "partial",
   "theorems": [
    "Verif.IR.Stm32.C155_bounds",
    "Verif.IR.Stm32.C155_sent_partial",
    "Verif.IR.Stm32.C155_cut_off_counterexample",
    "Verif.IR.Stm32.C155_long_counterexample"
   ],
   "note": "Bounds are proved for every history. That all light goes out is proved for messages of at most 128 pulses, signals of at most 0.1 s, and hardware that has read its part before the next call. Counterexamples: the busy flag is never set, so a second message sent during the first cuts it off; a message of more than 128 pulses loses its beginning."
  },
  {
   "property": "C156",
   "status": "partial",
   "theorems": [
    "Verif.Common.Pins.C156_clash_partial",
    "Verif.Common.Pins.C156_missing_input_counterexample"
   ],
   "note": "Proved when no input is declared at the missing pin. Counterexample: an input at -1 never compiles, as two special cases of the template fit. The compiler is modelled as a pass over the declarations."
  },
  {
   "property": "C16",
   "status": "proved",
   "theorems": [
    "Verif.Str.C16_append",
    "Verif.Str.C16_append_ext",
    "Verif.Str.C16_append_total",
    "Verif.Str.C16_dirname_append",
    "Verif.Str.C16_dirname"
   ],
   "note": "Every path that fits the buffer (C16_append_total: it fits whenever it is short enough); longer ones overflow the buffer in the code and are outside the theorems."
  },
  {
   "property": "C17",
   "status": "proved",
   "theorems": [
    "Verif.Str.Ring.C17_size",
    "Verif.Str.Ring.C17_clear",
    "Verif.Str.Ring.C17_write",
    "Verif.Str.Ring.C17_push",
    "Verif.Str.Ring.C17_read",
    "Verif.Str.Ring.C17_pop",
    "Verif.Str.Ring.C17_step",
    "Verif.Str.Ring.C17_fifo",
    "Verif.Str.Ring.C17_wrap_counterexample"
   ],
   "note": "Every capacity that divides the counter range (all uses: 16, 32, 1024), every operation sequence, any counter position; a capacity that does not divide it breaks at wrap-around (C17_wrap_counterexample). Sequential use; interrupt interleavings are C36's subject."
  },
  {
   "property": "C18",
   "status": "proved",
   "theorems": [
    "Verif.Num.C18_cyclint_order",
    "Verif.Num.C18_cyclint_deadline",
    "Verif.Num.C18_cyclint_elapsed",
    "Verif.Num.C18_cyclint_sharp"
   ],
   "note": "All widths; half-range bound shown sharp."
  },
  {
   "property": "C19",
   "status": "proved",
   "theorems": [
    "Verif.Num.C19_mod_spec",
    "Verif.Num.C19_mod_no_overflow",
    "Verif.Num.C19_clamp_nearest",
    "Verif.Num.C19_clamp_samples"
   ],
   "note": "MOD by 0 is UB (none); float clamp not modelled."
  },
  {
   "property": "C20",
   "status": "proved",
   "theorems": [
    "Verif.Num.C20_range_overlap",
    "Verif.Num.C20_stripes_at_zero",
    "Verif.Num.C20_stripes_general",
    "Verif.Num.C20_stripe_points"
   ],
   "note": "32-bit wrap-around modelled; the offset variant needs end + mod < 2^32."
  },
  {
   "property": "C21",
   "status": "proved",
   "theorems": [
    "Verif.Num.C21_field_set_get",
    "Verif.Num.C21_field_or",
    "Verif.Num.C21_field_spill"
   ],
   "note": "For values that fit the field; C21_field_spill shows larger values spill into neighbours."
  },
  {
   "property": "C22",
   "status": "proved",
   "theorems": [
    "Verif.Reg.C22_round",
    "Verif.Reg.C22_round_dynamic",
    "Verif.Reg.C22_stale_counterexample"
   ],
   "note": "Every allowed history, arbitrary initial link fields; dynamic rounds under the stated politeness of callbacks, with a counterexample showing why it is needed. Cycle counters and loop timing are not modelled."
  },
  {
   "property": "C23",
   "status": "proved",
   "theorems": [
    "Verif.Reg.C23_dispatch"
   ],
   "note": "Handlers accept or refuse as an arbitrary predicate; handlers that change the registry while asked are not modelled."
  },
  {
   "property": "C24",
   "status": "partial",
   "theorems": [
    "Verif.Reg.C24_linked_partial",
    "Verif.Reg.C24_raw_assign_counterexample",
    "Verif.Reg.C24_refcount"
   ],
   "note": "Counted pointers complete. Linked pointers: all histories except assigning a raw pointer to an object that shares its target, where the code leaks (counterexample proved)."
  },
  {
   "property": "C25",
   "status": "proved",
   "theorems": [
    "Verif.Reg.C25_mean",
    "Verif.Reg.C25_partial_fill",
    "Verif.Reg.C25_small",
    "Verif.Reg.C25_clear_counterexample"
   ],
   "note": "Integer samples of unbounded size; clear() leaves the first sample (counterexample proved)."
  },
  {
   "property": "C26",
   "status": "partial",
   "theorems": [
    "Verif.Num.C26_eventid_injective_partial",
    "Verif.Num.C26_eventid_none_power_collision",
    "Verif.Num.C26_eventid_none_collides_only_with_power"
   ],
   "note": "Uniqueness holds for all real buttons. It is false for BUTTON_NONE versus BUTTON_POWER (witness proved); that is proved to be the only collision."
  },
  {
   "property": "C27",
   "status": "proved",
   "theorems": [
    "Verif.Color.C27_mix",
    "Verif.Color.C27_mixcolors",
    "Verif.Color.C27_mixlayers",
    "Verif.Color.C27_clamped",
    "Verif.Color.C27_clamped_counterexample"
   ],
   "note": "All mix functions of Color8/Color16 and all MixColors overloads. mix_clamped clamps to 65536, which wraps to 0; shown by the counterexample and excluded from C27_clamped."
  },
  {
   "property": "C28",
   "status": "proved",
   "theorems": [
    "Verif.Color.C28_layers",
    "Verif.Color.C28_opaque_base",
    "Verif.Color.C28_transparent",
    "Verif.Color.C28_opaque",
    "Verif.Color.C28_stays_opaque",
    "Verif.Color.C28_fade",
    "Verif.Color.C28_double_multiply_counterexample",
    "Verif.Color.C28_flag"
   ],
   "note": "All twelve operator<< overloads and the alpha multiplications. The conversion RGBA(const RGBA_nod&) multiplies by alpha twice; shown by the counterexample."
  },
  {
   "property": "C29",
   "status": "proved",
   "theorems": [
    "Verif.Color.C29_order",
    "Verif.Color.C29_white",
    "Verif.Color.C29_inverse",
    "Verif.Color.C29_reorder",
    "Verif.Color.C29_reorder_white_counterexample"
   ],
   "note": "All 33 byte orders, all colours; inverse and reordering for the six RGB orders. Reordering on a blade with a white channel is undefined; shown by the counterexample."
  },
  {
   "property": "C30",
   "status": "proved",
   "theorems": [
    "Verif.Saber.C30_recent",
    "Verif.Saber.C30_bounds"
   ],
   "note": "For 32-bit microsecond time stamps the list must be looked at at least every 4287 s; otherwise old entries would look young again."
  },
  {
   "property": "C31",
   "status": "proved",
   "theorems": [
    "Verif.Saber.C31_state",
    "Verif.Saber.C31_isOn",
    "Verif.Saber.C31_silent",
    "Verif.Saber.C31_exact",
    "Verif.Saber.C31_notified",
    "Verif.Saber.C31_whole_saber",
    "Verif.Saber.C31_broadcast"
   ],
   "note": "Components do not register or unregister during a notification (see C22 for that)."
  },
  {
   "property": "C32",
   "status": "proved",
   "theorems": [
    "Verif.Saber.C32_reports",
    "Verif.Saber.C32_once",
    "Verif.Saber.C32_sees_new"
   ],
   "note": "The detector's last_detected_ starts uninitialised: the theorems hold for every initial value. Two effects with the same 32-bit microsecond stamp are merged."
  },
  {
   "property": "C33",
   "status": "proved",
   "theorems": [
    "Verif.Input.C33_debounce",
    "Verif.Input.C33_split",
    "Verif.Input.C33_release",
    "Verif.Input.C33_min_release",
    "Verif.Input.C33_no_dropout"
   ],
   "note": "Debouncer as a state machine over samples; exact characterisation for every history, 32-bit clock wrap included."
  },
  {
   "property": "C34",
   "status": "proved",
   "theorems": [
    "Verif.Input.C34_grammar",
    "Verif.Input.C34_slow_calls_counterexample"
   ],
   "note": "Debouncer and button together, polls at most 2 ms apart; the counterexample shows the grammar fails for slower polling. Time is constant within one step of Loop."
  },
  {
   "property": "C35",
   "status": "partial",
   "theorems": [
    "Verif.Input.C35_counts_partial",
    "Verif.Input.C35_direction",
    "Verif.Input.C35_bounce_partial",
    "Verif.Input.C35_resync",
    "Verif.Input.C35_setup_counterexample",
    "Verif.Input.C35_wrap_counterexample"
   ],
   "note": "Holds within the 8-bit range once an interrupt is attached; the code never attaches the first interrupt and wraps at 128 quarter steps (both proved)."
  },
  {
   "property": "C36",
   "status": "proved",
   "theorems": [
    "Verif.Audio.C36_fifo",
    "Verif.Audio.C36_no_loss",
    "Verif.Audio.C36_in_bounds",
    "Verif.Audio.C36_eof",
    "Verif.Audio.C36_read",
    "Verif.Audio.C36_parallel_clear_counterexample"
   ],
   "note": "All interleavings of the filling interrupt, the reading interrupt and the main program, which acts on the buffer only while the other two are idle (single core) and clears before changing stream. On a dual-core ESP32, where clear can overlap a fill, an old sample can survive: proved as a counterexample."
  },
  {
   "property": "C37",
   "status": "proved",
   "theorems": [
    "Verif.Audio.C37_ramp",
    "Verif.Audio.C37_no_overshoot",
    "Verif.Audio.C37_reaches",
    "Verif.Audio.C37_step_size",
    "Verif.Audio.C37_read",
    "Verif.Audio.C37_not_louder",
    "Verif.Audio.C37_fade_and_stop",
    "Verif.Audio.C37_limit"
   ],
   "note": "Volumes up to 65535 (full volume is 16384): no overflow of the product."
  },
  {
   "property": "C38",
   "status": "proved",
   "theorems": [
    "Verif.Audio.C38_sqrt",
    "Verif.Audio.C38_mix",
    "Verif.Audio.C38_fits",
    "Verif.Audio.C38_monotone",
    "Verif.Audio.C38_silence"
   ],
   "note": "Integer version of the mixer (fixed-point boards); up to 64 streams, volume times streams*32768 below 2^31. Not modelled: floating point read, statistics counters."
  },
  {
   "property": "C39",
   "status": "proved",
   "theorems": [
    "Verif.Audio.Queue.C39_queue",
    "Verif.Audio.Queue.C39_order",
    "Verif.Audio.Queue.C39_starts",
    "Verif.Audio.Queue.C39_busy"
   ],
   "note": "Players are environment choices; object in static storage (zero-initialised)."
  },
  {
   "property": "C40",
   "status": "proved",
   "theorems": [
    "Verif.Sound.C40_scan",
    "Verif.Sound.C40_names",
    "Verif.Sound.C40_random",
    "Verif.Sound.C40_no_overrun",
    "Verif.Sound.C40_min_counterexample",
    "Verif.Sound.C40_counted",
    "Verif.Sound.C40_stray_counterexample"
   ],
   "note": "For every listing order, every set of other files, and every position on the search path: numbers, counts and names. Consistently named families with the lowest number at most 127; with all numbers above 127 the code fails (C40_min_counterexample). Directory recursion order is not modelled."
  },
  {
   "property": "C41",
   "status": "proved",
   "theorems": [
    "Verif.Pqoi.C41_roundtrip",
    "Verif.Pqoi.C41_roundtrip_sequence",
    "Verif.Pqoi.C41_bytes"
   ],
   "note": "Full codec incl. lookup table; any start state and trailing bytes."
  },
  {
   "property": "C42",
   "status": "proved",
   "theorems": [
    "Verif.Pqoi.C42_any_pieces",
    "Verif.Pqoi.C42_any_stream",
    "Verif.Pqoi.C42_overshoot",
    "Verif.Pqoi.C42_output_portions",
    "Verif.Pqoi.C42_rows"
   ],
   "note": "Any split of the input, any request size; row chunks of width >= 4."
  },
  {
   "property": "C43",
   "status": "partial",
   "theorems": [
    "Verif.Pov.C43_roundtrip_partial",
    "Verif.Pov.C43_size",
    "Verif.Pov.C43_bytes",
    "Verif.Pov.C43_counterexample"
   ],
   "note": "Round trip, output size and byte range for every input without a repeat of 256 bytes (unless they are all equal). With such a repeat the code is wrong: the length 256 is stored as 0 (C43_counterexample)."
  },
  {
   "property": "C44",
   "status": "proved",
   "theorems": [
    "Verif.IR.Nec.C44_roundtrip",
    "Verif.IR.Nec.C44_resync"
   ],
   "note": "Every sequence of 32-bit codes, 16-bit codes and repeats, with any distortion within the decoder's own tolerance and pauses of at least 10 ms."
  },
  {
   "property": "C45",
   "status": "partial",
   "theorems": [
    "Verif.IR.Rc6.C45_frame",
    "Verif.IR.Rc6.C45_roundtrip_partial",
    "Verif.IR.Rc6.C45_resync",
    "Verif.IR.Rc6.C45_counterexample"
   ],
   "note": "Every control and information byte and toggle, every jitter below 150 us per (merged) pulse, any number of frames. A code with an odd information byte is only received if the length of the silence after it happens to be near a multiple of 444 us: the full claim is false, shown by C45_counterexample; C45_frame says exactly which frames are received."
  },
  {
   "property": "C46",
   "status": "partial",
   "theorems": [
    "Verif.Transition.C46_final",
    "Verif.Transition.C46_defined",
    "Verif.Transition.C46_start",
    "Verif.Transition.C46_sequence",
    "Verif.Transition.C46_time",
    "Verif.Transition.C46_fade_partial",
    "Verif.Transition.C46_smooth_partial",
    "Verif.Transition.C46_wrap_counterexample",
    "Verif.Transition.C46_smooth_counterexample",
    "Verif.Transition.C46_blink_counterexample"
   ],
   "note": "Start, end, order and duration proved for every combination of transitions and every frame schedule. Progress is monotone only for fades under 262 s (131 s for smooth fades, up to one rounding step): counterexamples show that longer ones jump back, and that a blinking transition ends with the first colour. Bent time scales (floating point) not modelled."
  },
  {
   "property": "C47",
   "status": "partial",
   "theorems": [
    "Verif.Transition.C47_wipe_partial",
    "Verif.Transition.C47_wipeIn_partial",
    "Verif.Transition.C47_centerWipe_partial",
    "Verif.Transition.C47_centerWipeIn_partial",
    "Verif.Transition.C47_counterexample"
   ],
   "note": "Proved for all blade sizes and durations with size times milliseconds below 2^24; the counterexample shows that longer wipes start again."
  },
  {
   "property": "C48",
   "status": "partial",
   "theorems": [
    "Verif.Func.C48_range",
    "Verif.Func.C48_mult",
    "Verif.Func.C48_layer",
    "Verif.Func.C48_divide",
    "Verif.Func.C48_mod",
    "Verif.Func.C48_sum",
    "Verif.Func.C48_clamp",
    "Verif.Func.C48_scale",
    "Verif.Func.C48_invert",
    "Verif.Func.C48_select",
    "Verif.Func.C48_selectX_partial",
    "Verif.Func.C48_selectX_counterexample",
    "Verif.Func.C48_linear",
    "Verif.Func.C48_circular",
    "Verif.Func.C48_smoothStep",
    "Verif.Func.C48_step",
    "Verif.Func.C48_increment",
    "Verif.Func.C48_reset",
    "Verif.Func.C48_sequence"
   ],
   "note": "Range and documented values for all inputs, LEDs and blade lengths up to 32767. IntSelectX picks the wrong function for negative selections (counterexample), so its theorem covers selections >= 0 only."
  },
  {
   "property": "C49",
   "status": "proved",
   "theorems": [
    "Verif.Func.C49_once"
   ],
   "note": "For every history of inputs, thresholds and percentages whose product fits an int."
  },
  {
   "property": "C50",
   "status": "proved",
   "theorems": [
    "Verif.Func.C50_speed",
    "Verif.Func.C50_towards",
    "Verif.Func.C50_arrives",
    "Verif.Func.C50_peak",
    "Verif.Func.C50_fall",
    "Verif.Func.C50_hold",
    "Verif.Func.C50_stuck_counterexample"
   ],
   "note": "For every history of inputs and frame times, speeds 0..2^31-1 and inputs within +-2^30. C50_arrives needs speed * frame time >= 1000000; the counterexample shows the value stuck for ever otherwise."
  },
  {
   "property": "C51",
   "status": "partial",
   "theorems": [
    "Verif.Func.C51_envelope_partial",
    "Verif.Func.C51_range",
    "Verif.Func.C51_gap_counterexample"
   ],
   "note": "For every history with frame gaps up to 1000 s and constant times below 54 min each; longer gaps can restart the envelope (counterexample)."
  },
  {
   "property": "C52",
   "status": "partial",
   "theorems": [
    "Verif.Blade.C52_own",
    "Verif.Blade.C52_disjoint",
    "Verif.Blade.C52_columns",
    "Verif.Blade.C52_zz_counterexample"
   ],
   "note": "plain, reverse, stride and zig-zag; zig-zag needs whole rows, otherwise it leaves its range (counterexample)"
  },
  {
   "property": "C53",
   "status": "proved",
   "theorems": [
    "Verif.Blade.Pin.C53_shared",
    "Verif.Blade.Pin.C53_released",
    "Verif.Blade.Pin.C53_unshared_counterexample"
   ],
   "note": "with SHARED_POWER_PINS and at most 255 users of a pin; the default build does not share (counterexample)"
  },
  {
   "property": "C54",
   "status": "proved",
   "theorems": [
    "Verif.Blade.C54_active",
    "Verif.Blade.C54_inactive",
    "Verif.Blade.C54_ends"
   ],
   "note": "all histories of creating, activating and deactivating sub-blades"
  },
  {
   "property": "C55",
   "status": "proved",
   "theorems": [
    "Verif.Menu.C55_walk",
    "Verif.Menu.C55_step",
    "Verif.Menu.C55_stale",
    "Verif.Menu.C55_entries",
    "Verif.Menu.C55_select",
    "Verif.Menu.C55_empty_counterexample"
   ],
   "note": "All sizes 1..65535 and all step sequences; every nonempty entry list. An empty menu divides by zero (counterexample)."
  },
  {
   "property": "C56",
   "status": "proved",
   "theorems": [
    "Verif.Menu.Stack.C56_stack",
    "Verif.Menu.Stack.C56_hierarchy",
    "Verif.Menu.Stack.C56_return",
    "Verif.Menu.Stack.C56_callbacks",
    "Verif.Menu.Stack.C56_twice_counterexample"
   ],
   "note": "For all histories in which no mode is entered while already open, which every acyclic menu structure guarantees; entering the current mode again can never be left (counterexample)."
  },
  {
   "property": "C57",
   "status": "proved",
   "theorems": [
    "Verif.Pqoi.C57_alpha_roundtrip",
    "Verif.Pqoi.C57_alpha_roundtrip_exact",
    "Verif.Pqoi.C57_blend"
   ],
   "note": "Alphas exact; colours exact wherever alpha != 32."
  },
  {
   "property": "C58",
   "status": "partial",
   "theorems": [
    "Verif.Store.C58_value_roundtrip_partial",
    "Verif.Store.C58_negative_counterexample"
   ],
   "note": "Proved for all non-negative values; false for negative ones (-1.5 is written as -2.-50 and read back as -2), counterexample proved."
  },
  {
   "property": "C59",
   "status": "partial",
   "theorems": [
    "Verif.Str.C59_reset",
    "Verif.Str.C59_copy",
    "Verif.Str.C59_copy_list",
    "Verif.Str.C59_copy_colors",
    "Verif.Str.C59_copy_after_partial",
    "Verif.Str.C59_copy_after_overflow"
   ],
   "note": "The variant that keeps the arguments after a position allocates too small a buffer in some cases (C59_copy_after_overflow)."
  },
  {
   "property": "C60",
   "status": "proved",
   "theorems": [
    "Verif.Color.C60_waveform"
   ],
   "note": "Both word layouts (pin mask and timer values)."
  },
  {
   "property": "C61",
   "status": "proved",
   "theorems": [
    "Verif.Color.C61_rotate",
    "Verif.Color.C61_direction"
   ],
   "note": "Angles from 0 up to the point where int overflows; third-of-circle rotations up to 5 steps of rounding."
  },
  {
   "property": "C62",
   "status": "proved",
   "theorems": [
    "Verif.Color.C62_dither",
    "Verif.Color.C62_average"
   ],
   "note": "Average over the 4x4 block for values between the first and last level."
  },
  {
   "property": "C63",
   "status": "partial",
   "theorems": [
    "Verif.Color.C63_select",
    "Verif.Color.C63_select_fits",
    "Verif.Color.C63_spi_partial",
    "Verif.Color.C63_spi_counterexample"
   ],
   "note": "Selection is proved in full. SPI output wraps to 0 for 118 of the 65536 brightest-channel values; these are listed and excluded, and shown by the counterexample."
  },
  {
   "property": "C64",
   "status": "proved",
   "theorems": [
    "Verif.Input.C64_latch",
    "Verif.Input.C64_alternate",
    "Verif.Input.C64_votes",
    "Verif.Input.C64_eleven"
   ],
   "note": "State machines stepped once per reading."
  },
  {
   "property": "C65",
   "status": "proved",
   "theorems": [
    "Verif.IR.Blaster.C65_roundtrip",
    "Verif.IR.Blaster.C65_no_false_hit"
   ],
   "note": "Blade on (SaberBase::IsOn is the only other condition). Jitter below 100 us per pulse, any silence between messages."
  },
  {
   "property": "C66",
   "status": "partial",
   "theorems": [
    "Verif.IR.Receiver.C66_delivery_partial",
    "Verif.IR.Receiver.C66_time",
    "Verif.IR.Receiver.C66_counterexample"
   ],
   "note": "Exactly once and in order for every interleaving with at most 15 waiting pulses, but each pulse is delivered one pulse late because the writer stores at head+1 and the reader reads at tail: C66_counterexample shows the newest pulse is still in the buffer when the loop believes it is empty."
  },
  {
   "property": "C67",
   "status": "partial",
   "theorems": [
    "Verif.Transition.C67_plays",
    "Verif.Transition.C67_timed_partial",
    "Verif.Transition.C67_counterexample",
    "Verif.Transition.C67_interrupted_counterexample"
   ],
   "note": "C67_plays says exactly how often the transition is played: N times if it reports done right after begin, N+1 times otherwise. The counterexamples show that sequences, and fades that are begun again while running, are played N+1 times."
  },
  {
   "property": "C68",
   "status": "proved",
   "theorems": [
    "Verif.Transition.C68_select",
    "Verif.Transition.C68_sequence",
    "Verif.Transition.C68_counterexample"
   ],
   "note": "Proved. C68_counterexample: TrSequence starts with its second transition, not the first as documented."
  },
  {
   "property": "C69",
   "status": "proved",
   "theorems": [
    "Verif.Transition.C69_layer",
    "Verif.Transition.C69_idle"
   ],
   "note": "Proved for TransitionEffectL, TransitionPulseL and TransitionHelper. MultiTransitionEffectL not modelled."
  },
  {
   "property": "C70",
   "status": "partial",
   "theorems": [
    "Verif.Blade.C70_primary",
    "Verif.Blade.C70_frame",
    "Verif.Blade.C70_drive",
    "Verif.Blade.C70_all",
    "Verif.Blade.C70_counterexample"
   ],
   "note": "needs exactly one sub-blade with the first LED of the blade; without one nothing is ever rendered (counterexample)"
  },
  {
   "property": "C71",
   "status": "partial",
   "theorems": [
    "Verif.Blade.Ws.C71_own",
    "Verif.Blade.Ws.C71_turn",
    "Verif.Blade.Ws.C71_nostyle_counterexample",
    "Verif.Blade.Ws.C71_stuck_counterexample"
   ],
   "note": "fails when a style is removed during the wait for a frame, and a blade deactivated during that wait keeps the buffer for ever (counterexamples)"
  },
  {
   "property": "C72",
   "status": "partial",
   "theorems": [
    "Verif.Blade.Ws.C72_delay",
    "Verif.Blade.Ws.C72_off",
    "Verif.Blade.Ws.C72_on_partial",
    "Verif.Blade.Ws.C72_race_counterexample"
   ],
   "note": "an ignition during the wait to send the last frame leaves the blade on but dark (counterexample)"
  },
  {
   "property": "C73",
   "status": "proved",
   "theorems": [
    "Verif.Menu.Setting.C73_cancel",
    "Verif.Menu.Setting.C73_select",
    "Verif.Menu.Setting.C73_length"
   ],
   "note": "All starting values and all change sequences. Settings stored through floating point (volume, dimming) are not covered."
  },
  {
   "property": "C74",
   "status": "partial",
   "theorems": [
    "Verif.Menu.C74_keep_partial",
    "Verif.Menu.C74_counterexample"
   ],
   "note": "The code violates it: blade and preset are exchanged when the position is decoded. Proved: exactly when the style is kept, and that styles are unreachable."
  },
  {
   "property": "C75",
   "status": "proved",
   "theorems": [
    "Verif.Speech.C75_whole",
    "Verif.Speech.C75_talkie",
    "Verif.Speech.C75_two_digits",
    "Verif.Speech.C75_two_digits_counterexample",
    "Verif.Speech.C75_negative_counterexample"
   ],
   "note": "Both number speakers say exactly the number with recorded words. Outside the quantifier: negative numbers ask for a recording that does not exist, and rounding to two digits overflows above 10^9 (both shown by witness)."
  },
  {
   "property": "C76",
   "status": "partial",
   "theorems": [
    "Verif.Serial.C76_lines",
    "Verif.Serial.C76_safe",
    "Verif.Serial.C76_lost",
    "Verif.Serial.C76_memory_counterexample"
   ],
   "note": "Proved for every stream as long as allocation succeeds; buffer safety and the effect of disconnection proved for all streams and allocation failures. Fails in one case: when allocation is refused in the middle of a line, the rest of that line is executed as a line of its own (witness)."
  },
  {
   "property": "C77",
   "status": "partial",
   "theorems": [
    "Verif.Audio.PlayWav.C77_play_partial",
    "Verif.Audio.PlayWav.C77_align",
    "Verif.Audio.PlayWav.C77_last_counterexample",
    "Verif.Audio.PlayWav.C77_loud_counterexample",
    "Verif.Audio.PlayWav.C77_memory_counterexample",
    "Verif.Audio.PlayWav.C77_hang_counterexample",
    "Verif.Audio.PlayWav.C77_padding_counterexample",
    "Verif.Audio.PlayWav.C77_leftover_counterexample"
   ],
   "note": "Proved for every well-formed file without padding bytes, supported format, first file played, and (when resampling) amplitude below full scale, except that the last frame is missing. The code violates the full claim: the last frame is never played; resampling loud samples overflows an int; a file with frames of more than 8 bytes makes the player move bytes to before its buffer; a chunk length near 2^32 hangs it; odd chunks with the padding byte the format demands are not understood; the resampler starts with the end of the previous file (all with witnesses)."
  },
  {
   "property": "C78",
   "status": "proved",
   "theorems": [
    "Verif.Serial.Rfid.C78_frame",
    "Verif.Serial.Rfid.C78_only",
    "Verif.Serial.Rfid.C78_recover",
    "Verif.Serial.Rfid.C78_commands",
    "Verif.Serial.Rfid.C78_stray_counterexample"
   ],
   "note": "Proved for all tags and all streams; the counterexample shows why the parser must be waiting: a stray start byte immediately before a tag makes it miss the tag."
  },
  {
   "property": "C79",
   "status": "partial",
   "theorems": [
    "Verif.Prop.SearchPath.C79_path",
    "Verif.Prop.SearchPath.C79_slash",
    "Verif.Prop.SearchPath.C79_overflow_counterexample",
    "Verif.Prop.SearchPath.C79_empty_counterexample",
    "Verif.Prop.SearchPath.C79_first_empty_counterexample"
   ],
   "note": "Proved for every list of non-empty names which fits the buffer. The code violates the full claim (witnesses): longer paths are written beyond the array, an empty name hides the rest of the path, and an empty first name makes the backward walk read before the array."
  },
  {
   "property": "C80",
   "status": "partial",
   "theorems": [
    "Verif.Prop.Clash.C80_ignore",
    "Verif.Prop.Clash.C80_button",
    "Verif.Prop.Clash.C80_gap_partial",
    "Verif.Prop.Clash.C80_vibration",
    "Verif.Prop.Clash.C80_exact",
    "Verif.Prop.Clash.C80_held",
    "Verif.Prop.Clash.C80_mail",
    "Verif.Prop.Clash.C80_double_counterexample",
    "Verif.Prop.Clash.C80_weaker_counterexample",
    "Verif.Prop.Clash.C80_wrap_counterexample",
    "Verif.Prop.Clash.C80_race_counterexample"
   ],
   "note": "Silence after requests, buttons and clashes is proved for all histories, the announcement of hits for all histories ending in calm. Missing from the full claim because the code violates it (witnesses): a clash waiting for a button can be announced right after another one; a later, weaker contact can replace a stronger one waiting; after 2^32 ms without contact one is ignored; an interrupt between clearing the flag and reading loses the greater strength."
  },
  {
   "property": "C81",
   "status": "partial",
   "theorems": [
    "Verif.Prop.Mute.C81_heard_partial",
    "Verif.Prop.Mute.C81_ignition",
    "Verif.Prop.Mute.C81_set_counterexample",
    "Verif.Prop.Mute.C81_reboot_counterexample",
    "Verif.Prop.Mute.C81_unmute_counterexample",
    "Verif.Prop.Mute.C81_preon_counterexample"
   ],
   "note": "Proved for histories in which the volume is not changed while muted and silent ignitions are not mixed with other muting. The code violates the full claim otherwise (witnesses): a volume set while muted is lost on unmute, a reboot while muted with SAVE_VOLUME stays silent, a stale flag unmutes later, a silent ignition cancelled before the blade is on stays muted."
  },
  {
   "property": "C82",
   "status": "partial",
   "theorems": [
    "Verif.Prop.Ignition.C82_off",
    "Verif.Prop.Ignition.C82_preset",
    "Verif.Prop.Ignition.C82_ignite",
    "Verif.Prop.Ignition.C82_some",
    "Verif.Prop.Ignition.C82_second_counterexample",
    "Verif.Prop.Ignition.C82_cancel_counterexample",
    "Verif.Prop.Ignition.C82_preset_counterexample",
    "Verif.Prop.Ignition.C82_cd_counterexample"
   ],
   "note": "Proved for all histories as long as no second operation falls into an ignition under way (turning everything off may). The code violates the full claim in that case (witnesses): a second ignition loses the blades of the first; turning one waiting blade off turns all off; switching presets turns on all blades; changing the font loses the ignition while the prop counts as on."
  },
  {
   "property": "C83",
   "status": "proved",
   "theorems": [
    "Verif.Prop.Gesture.C83_twist",
    "Verif.Prop.Gesture.C83_shake",
    "Verif.Prop.Gesture.C83_clean",
    "Verif.Prop.Gesture.C83_rest",
    "Verif.Prop.Gesture.C83_start_counterexample"
   ],
   "note": "Proved for all histories; the classification of gyro and acceleration samples into strokes (floating point) is input to the model. Shake is proved from 250 ms after the start: before that the zeroed history can count as strokes (witness)."
  },
  {
   "property": "C84",
   "status": "proved",
   "theorems": [
    "Verif.Prop.BladeId.C84_closest",
    "Verif.Prop.BladeId.C84_bounds",
    "Verif.Prop.BladeId.C84_present",
    "Verif.Prop.BladeId.C84_rescan",
    "Verif.Prop.BladeId.C84_far_counterexample"
   ],
   "note": "Proved for all tables and measurements within 100 megohm of some entry; with none that close the first configuration is used (witness)."
  },
  {
   "property": "C85",
   "status": "partial",
   "theorems": [
    "Verif.Style.C85_power_off_invisible_partial",
    "Verif.Style.C85_powers_off",
    "Verif.Style.C85_transition_powers_off",
    "Verif.Style.C85_linear_section_counterexample",
    "Verif.Style.C85_cylon_counterexample",
    "Verif.Style.C85_fire_counterexample",
    "Verif.Style.C85_spark_tip_counterexample",
    "Verif.Style.C85_nested_delays_counterexample"
   ],
   "note": "Proved for all nestings of the modelled styles and functions which satisfy a syntactic side condition (Sty.ok). The code violates the full claim outside it (witnesses): a section covering the whole range counts as everything though its ends are not covered; Cylon with black off colour but coloured base; fire which is relit; spark tip with a negative extension; nested ignition and retraction delays."
  },
  {
   "property": "C86",
   "status": "partial",
   "theorems": [
    "Verif.Style.C86_ignition_delay",
    "Verif.Style.C86_retraction_delay_partial",
    "Verif.Style.C86_negative_retraction_counterexample"
   ],
   "note": "Proved for constant delays and all histories. A negative retraction delay (which for ignition means none) never lets the style retract (witness)."
  },
  {
   "property": "C87",
   "status": "partial",
   "theorems": [
    "Verif.I2C.C87_order",
    "Verif.I2C.C87_progress",
    "Verif.I2C.C87_answers",
    "Verif.I2C.C87_early_unlock_counterexample"
   ],
   "note": "Proved for all executions in which a device does not call I2CUnlock between its request being accepted and its RunLocked() being called; without this condition the call goes through a null pointer (C87_early_unlock_counterexample)."
  },
  {
   "property": "C88",
   "status": "partial",
   "theorems": [
    "Verif.Display.C88_landscape",
    "Verif.Display.C88_layout",
    "Verif.Display.C88_draw",
    "Verif.Display.C88_text_partial",
    "Verif.Display.C88_shapes",
    "Verif.Display.C88_below_counterexample",
    "Verif.Display.C88_del_counterexample",
    "Verif.Display.C88_clear_counterexample",
    "Verif.Display.C88_portrait_counterexample",
    "Verif.Display.C88_flip_counterexample"
   ],
   "note": "Landscape images, glyphs overlapping the rows of the display, texts without DEL, pixels, lines and rectangles proved for all sizes. The code violates the rest: drawing below the display shifts by the word size, DEL reads beyond the font, ClearRect clears the rows above the rectangle too, the portrait layout is never selected, and flipping on 64-line displays shifts an int by 32; each has a witness."
  },
  {
   "property": "C89",
   "status": "proved",
   "theorems": [
    "Verif.Motion.C89_least_squares",
    "Verif.Motion.C89_exact"
   ],
   "note": "common/extrapolator.h, both classes, over rational numbers (float rounding is not modelled); 32 bit clock with wrap. Conditions: 1 <= N <= 1024 and samples at most G microseconds apart with (1024+N)*G < 2^32 (about 4 seconds for N = 10); at least one sample (before the first one the code divides by zero; the model then has no value)."
  },
  {
   "property": "C90",
   "status": "partial",
   "theorems": [
    "Verif.Motion.C90_rotation",
    "Verif.Motion.C90_compose",
    "Verif.Motion.C90_fromTo",
    "Verif.Motion.C90_euler",
    "Verif.Motion.C90_turns",
    "Verif.Motion.C90_mounting",
    "Verif.Motion.C90_bytes",
    "Verif.Motion.C90_down_bounded",
    "Verif.Motion.C90_down_converges",
    "Verif.Motion.C90_invert_partial",
    "Verif.Motion.C90_rotateY_counterexample",
    "Verif.Motion.C90_invert_counterexample"
   ],
   "note": "vec3.h, quat.h, motion_util.h and the gravity part of fuse.h over any ordered field. Partial because the code violates the full claim: Vec3 RotateY is not a rotation (it maps the x axis to zero at a quarter turn), and Quat divided by a float divides the vector by a truncated integer, so invert divides by zero for squared lengths below 1. Floating point rounding is not modelled."
  },
  {
   "property": "C91",
   "status": "partial",
   "theorems": [
    "Verif.Swing.C91_schedule",
    "Verif.Swing.C91_continuous",
    "Verif.Swing.C91_volumes",
    "Verif.Swing.C91_looped",
    "Verif.Swing.C91_hang_counterexample",
    "Verif.Swing.C91_cut_counterexample",
    "Verif.Swing.C91_overlap_counterexample"
   ],
   "note": "smooth_swing_v2.h (SB_Motion, PickRandomSwing) and looped_swing_wrapper.h over rational numbers; accent swings and player start/stop are not modelled. Partial because the code violates the full claim: at the end of a swing new sounds are picked in the same call that asks for the fade (the OUT state does not wait); continuity needs transitions that do not overlap (the defaults satisfy it); separations of 0 in the configuration file make the loop endless."
  },
  {
   "property": "C92",
   "status": "partial",
   "theorems": [
    "Verif.Amp.C92_on",
    "Verif.Amp.C92_off_partial",
    "Verif.Amp.C92_sleep_partial",
    "Verif.Amp.C92_sleep_short_counterexample",
    "Verif.Amp.C92_sleep_long_counterexample",
    "Verif.Amp.C92_stuck_counterexample",
    "Verif.Amp.C92_command_counterexample"
   ],
   "note": "The code violates the rest: sleeps go wrong when the clock wraps; the amplifier stays on if an announcement is followed by 30 ms without a main loop round and nothing plays; amp off leaves it marked on."
  },
  {
   "property": "C93",
   "status": "partial",
   "theorems": [
    "Verif.Blaster.C93_ammo",
    "Verif.Blaster.C93_jam",
    "Verif.Blaster.C93_trigger",
    "Verif.Blaster.C93_auto_partial",
    "Verif.Blaster.C93_auto_counterexample",
    "Verif.Blaster.C93_burst_counterexample",
    "Verif.Blaster.C93_mode_counterexample",
    "Verif.Blaster.C93_clip_counterexample"
   ],
   "note": "The code violates the rest: auto fire goes on if the trigger is let go with another button held, and needs no ammunition; a power cut during auto fire blocks mode changes; Reload fills the magazine without a clip."
  },
  {
   "property": "C94",
   "status": "partial",
   "theorems": [
    "Verif.Font.C94_refs",
    "Verif.Font.C94_exclusive",
    "Verif.Font.C94_volume",
    "Verif.Font.C94_fade_in",
    "Verif.Font.C94_fade_out",
    "Verif.Font.C94_hum_partial",
    "Verif.Font.C94_silent_partial",
    "Verif.Font.C94_silence_partial",
    "Verif.Font.C94_cancel_counterexample",
    "Verif.Font.C94_effect_counterexample",
    "Verif.Font.C94_players_counterexample",
    "Verif.Font.C94_preon_counterexample",
    "Verif.Font.C94_blade_counterexample",
    "Verif.Font.C94_other_blade_counterexample",
    "Verif.Font.C94_blast_counterexample",
    "Verif.Font.C94_postoff_counterexample",
    "Verif.Font.C94_nohum_counterexample"
   ],
   "note": "References, exclusivity, the volume and the fades hold for every history. The hum being there while on and silence while off hold for complete fonts and histories that keep to stated rules; the counterexamples show that each rule is needed: cancelling a pre-on, an effect in place of the hum while off, no free player, pre-on during the fade out, turning off a blade that is not the main one, a blast with a monophonic font, a font without hum."
  },
  {
   "property": "C95",
   "status": "proved",
   "theorems": [
    "Verif.Prop.Battery.C95_low",
    "Verif.Prop.Battery.C95_reported",
    "Verif.Prop.Battery.C95_voltage",
    "Verif.Prop.Battery.C95_percent",
    "Verif.Prop.Battery.C95_warning",
    "Verif.Prop.Battery.C95_idle",
    "Verif.Prop.Battery.C95_apart",
    "Verif.Prop.Battery.C95_wrap_counterexample"
   ],
   "note": "Any schedule of the monitor's loop, any decay factors in 0..1 (floats as rationals). The report is exact for the first 2^32 readings; after seven weeks of low readings in a row the counter wraps and the report pauses for a second (C95_wrap_counterexample). Completeness of warnings and of the idle switch-off is for spans below 2^32 ms."
  },
  {
   "property": "C96",
   "status": "partial",
   "theorems": [
    "Verif.Prop.SaberButtons.C96_power_click",
    "Verif.Prop.SaberButtons.C96_power_long",
    "Verif.Prop.SaberButtons.C96_aux_click",
    "Verif.Prop.SaberButtons.C96_contact",
    "Verif.Prop.SaberButtons.C96_lockup",
    "Verif.Prop.SaberButtons.C96_aux_power",
    "Verif.Prop.SaberButtons.C96_lightning",
    "Verif.Prop.SaberButtons.C96_bump",
    "Verif.Prop.SaberButtons.C96_lockup_history",
    "Verif.Prop.SaberButtons.C96_release",
    "Verif.Prop.SaberButtons.C96_power",
    "Verif.Prop.SaberButtons.C96_muted",
    "Verif.Prop.SaberButtons.C96_both_held",
    "Verif.Prop.SaberButtons.C96_blasts_counterexample",
    "Verif.Prop.SaberButtons.C96_direction_counterexample",
    "Verif.Prop.SaberButtons.C96_dual_counterexample"
   ],
   "note": "Everything holds for the saber without DUAL_POWER_BUTTONS except: a quick second press of AUX gives an additional blast and keeps an old drag direction; with DUAL_POWER_BUTTONS both buttons become POWER. The three failures are proved as counterexamples."
  },
  {
   "property": "C97",
   "status": "partial",
   "theorems": [
    "Verif.Prop.Detonator.C97_explodes_partial",
    "Verif.Prop.Detonator.C97_blows",
    "Verif.Prop.Detonator.C97_on_unarmed",
    "Verif.Prop.Detonator.C97_off_safe",
    "Verif.Prop.Detonator.C97_stale_counterexample",
    "Verif.Prop.Detonator.C97_switch_counterexample"
   ],
   "note": "Proved for all histories in which it is not switched on while an explosion is pending; otherwise the pending explosion survives switching off and on (counterexample). Also shown: the switch is ignored while the button is held."
  },
  {
   "property": "C98",
   "status": "partial",
   "theorems": [
    "Verif.Menu.Twist.C98_tracks",
    "Verif.Menu.Twist.C98_returns",
    "Verif.Menu.Twist.C98_no_chatter",
    "Verif.Menu.Twist.C98_rests",
    "Verif.Menu.Twist.C98_wraps",
    "Verif.Menu.Twist.C98_wrap_returns",
    "Verif.Menu.Twist.C98_rails",
    "Verif.Menu.Twist.C98_ends",
    "Verif.Menu.Twist.C98_open_partial",
    "Verif.Menu.Twist.C98_open_counterexample",
    "Verif.Menu.Twist.C98_click_counterexample",
    "Verif.Menu.Twist.C98_range_counterexample"
   ],
   "note": "Exact arithmetic instead of float. Partial because the code violates the last sentence: opening a value between the ends lowers it by the margin, and a click at the top end jumps to the bottom (counterexamples). Tracking is for turns of at most one entry between two loops at no more than one turn per second (faster turns are accelerated on purpose)."
  },
  {
   "property": "C99",
   "status": "partial",
   "theorems": [
    "Verif.Display.Script.C99_exact",
    "Verif.Display.Script.C99_finishes",
    "Verif.Display.Script.C99_layers",
    "Verif.Display.Script.C99_file",
    "Verif.Display.Script.C99_restart",
    "Verif.Display.Script.C99_restart_own",
    "Verif.Display.Script.C99_continues_partial",
    "Verif.Display.Script.C99_syntax",
    "Verif.Display.Script.C99_values",
    "Verif.Display.Script.C99_too_many",
    "Verif.Display.Script.C99_next",
    "Verif.Display.Script.C99_last_line_counterexample",
    "Verif.Display.Script.C99_sticky_counterexample",
    "Verif.Display.Script.C99_takeover_counterexample",
    "Verif.Display.Script.C99_undefined_counterexample"
   ],
   "note": "Partial because the code violates parts of it (counterexamples): unterminated last line dropped, restart sticks, a script started by an effect takes over a running one, undefined behaviour for lines without value or too long (hypothesis Good)."
  }
 ]
}