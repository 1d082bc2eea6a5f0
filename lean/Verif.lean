import Verif.Num.Props
import Verif.Pqoi.Props
import Verif.Store.ConfigLemmas
import Verif.Store.Props
import Verif.Store.PresetProps
import Verif.Str.CopyArgs
import Verif.Str.SortedProps
import Verif.Str.BitSetProps
import Verif.Str.RingProps
import Verif.Reg.Lists
import Verif.Reg.Ptr
import Verif.Reg.BoxProps
import Verif.Color.Mix
import Verif.Color.Over
import Verif.Color.Order
import Verif.Color.Misc
import Verif.Input.Switch
import Verif.Input.Button
import Verif.Input.Rotary
import Verif.Input.Analog
import Verif.Saber.Model
import Verif.Saber.Effects
import Verif.Saber.OnOff
import Verif.Audio.Ring
import Verif.Audio.Volume
import Verif.Audio.Mixer
import Verif.Audio.Queue
import Verif.Audio.Beeper
import Verif.Sound.Scan
import Verif.Sound.ScanLemmas
import Verif.Sound.ScanFile
import Verif.Sound.ScanProps
import Verif.Sound.ScanDir
import Verif.Pov.Rle
import Verif.Pov.RleProps
import Verif.IR.Nec
import Verif.IR.Rc6
import Verif.IR.Blaster
import Verif.IR.Receiver
import Verif.IR.Stm32
import Verif.Transition.Model
import Verif.Transition.Colors
import Verif.Transition.Time
import Verif.Transition.Props
import Verif.Transition.Smooth
import Verif.Transition.Progress
import Verif.Transition.Loop
import Verif.Transition.Wipe
import Verif.Transition.Select
import Verif.Func.Basic
import Verif.Func.Range
import Verif.Func.Values
import Verif.Func.Impact
import Verif.Func.Sparkle
import Verif.Func.Timing
import Verif.Func.Pulse
import Verif.Func.Slow
import Verif.Func.Trigger
import Verif.Blade.SubBlade
import Verif.Blade.Ring
import Verif.Blade.RingProps
import Verif.Blade.PowerPin
import Verif.Blade.Booster
import Verif.Blade.Ws2811
import Verif.Blade.Ws2811Props
import Verif.Menu.Menu
import Verif.Menu.Stack
import Verif.Menu.Setting
import Verif.Menu.Twist
import Verif.Speech.Number
import Verif.Serial.Line
import Verif.Serial.Rfid
import Verif.Audio.PlayWav
import Verif.Audio.PlayWavProps
import Verif.Prop.SearchPath
import Verif.Prop.Clash
import Verif.Prop.Ignition
import Verif.Prop.Mute
import Verif.Prop.Gesture
import Verif.Prop.BladeId
import Verif.Style.PowerProps
import Verif.Style.Delay
import Verif.Style.SinTable
import Verif.Style.Stripes
import Verif.Style.Cycle
import Verif.Style.Fire
import Verif.Style.Lockup
import Verif.Style.Choose
import Verif.Style.SmallLayers
import Verif.Style.MultiEffect
import Verif.Func.Osc
import Verif.I2C.Props
import Verif.Display.Draw
import Verif.Display.Convert
import Verif.Display.Script
import Verif.Motion.ExtrapProps
import Verif.Motion.Orient
import Verif.Sound.Swing
import Verif.Sound.Font
import Verif.Sound.FontRefs
import Verif.Sound.FontInv
import Verif.Sound.FontStep
import Verif.Sound.FontProps
import Verif.Audio.Amp
import Verif.Prop.Blaster
import Verif.Prop.Battery
import Verif.Prop.SaberButtons
import Verif.Prop.SaberButtonsLemmas
import Verif.Prop.SaberButtonsSend
import Verif.Prop.SaberButtonsProps
import Verif.Prop.SaberButtonsGestures
import Verif.Prop.SaberButtonsClaims
import Verif.Prop.Detonator
import Verif.Audio.Say
import Verif.Store.PresetMenu
import Verif.Prop.Sa22c
import Verif.Prop.Dual
import Verif.I2C.Bus
import Verif.Input.Pots
import Verif.Menu.ColorMenu
import Verif.Common.Pins
import Verif.Common.House
import Verif.Audio.Filter
import Verif.Blade.Drive
import Verif.Blade.Savi
import Verif.Style.ArgMax
import Verif.Style.Pov
import Verif.Style.FromFile
import Verif.Style.ShowColor
import Verif.Audio.Synth
import Verif.Style.Display
import Verif.Prop.Micom
import Verif.Prop.Caiwyn
import Verif.Input.FastButton
import Verif.Blade.FastLed
import Verif.Str.ByteArray
import Verif.Func.Levels
import Verif.Transition.Cycle
import Verif.Menu.StyleEdit
import Verif.Input.Touch
import Verif.Common.Output
import Verif.Common.Owned
import Verif.Common.LoopCount
import Verif.Prop.AudioFx
import Verif.Audio.Work
import Verif.Blade.Pwm
import Verif.Common.Cycles
import Verif.Common.SdTest
import Verif.Common.PassThrough
import Verif.Prop.ClashRec
import Verif.Style.Charging
import Verif.Audio.Talkie
