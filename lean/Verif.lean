import Verif.Props.C01
import Verif.Props.C02
import Verif.Props.C03
import Verif.Props.C04_C05
import Verif.Props.C06_C07
import Verif.Props.C08_C11
import Verif.Props.C100
import Verif.Props.C101
import Verif.Props.C102
import Verif.Props.C103
import Verif.Props.C104
import Verif.Props.C105
import Verif.Props.C106
import Verif.Props.C107
import Verif.Props.C108
import Verif.Props.C109
import Verif.Props.C110
import Verif.Props.C111
import Verif.Props.C112
import Verif.Props.C113
import Verif.Props.C114
import Verif.Props.C115
import Verif.Props.C116
import Verif.Props.C117
import Verif.Props.C118_C119
import Verif.Props.C120
import Verif.Props.C121
import Verif.Props.C122
import Verif.Props.C123
import Verif.Props.C124
import Verif.Props.C125
import Verif.Props.C126
import Verif.Props.C127
import Verif.Props.C128
import Verif.Props.C129
import Verif.Props.C129_values
import Verif.Props.C12_C13
import Verif.Props.C12_regression
import Verif.Props.C130
import Verif.Props.C131
import Verif.Props.C132
import Verif.Props.C133
import Verif.Props.C134
import Verif.Props.C135
import Verif.Props.C136
import Verif.Props.C137
import Verif.Props.C138
import Verif.Props.C139
import Verif.Props.C140
import Verif.Props.C141
import Verif.Props.C142
import Verif.Props.C143
import Verif.Props.C144
import Verif.Props.C145
import Verif.Props.C146
import Verif.Props.C147
import Verif.Props.C148
import Verif.Props.C149
import Verif.Props.C14_C16
import Verif.Props.C150
import Verif.Props.C151
import Verif.Props.C152
import Verif.Props.C153
import Verif.Props.C154
import Verif.Props.C155
import Verif.Props.C156
import Verif.Props.C157
import Verif.Props.C158
import Verif.Props.C159
import Verif.Props.C160
import Verif.Props.C161
import Verif.Props.C162
import Verif.Props.C163
import Verif.Props.C164
import Verif.Props.C165
import Verif.Props.C166
import Verif.Props.C167
import Verif.Props.C168
import Verif.Props.C169
import Verif.Props.C170
import Verif.Props.C171
import Verif.Props.C172
import Verif.Props.C173
import Verif.Props.C174
import Verif.Props.C175
import Verif.Props.C176
import Verif.Props.C177
import Verif.Props.C178
import Verif.Props.C179
import Verif.Props.C17_C19
import Verif.Props.C180
import Verif.Props.C181
import Verif.Props.C182
import Verif.Props.C183
import Verif.Props.C20
import Verif.Props.C21
import Verif.Props.C22
import Verif.Props.C23_C26
import Verif.Props.C27_C29
import Verif.Props.C30
import Verif.Props.C31_C32
import Verif.Props.C33
import Verif.Props.C34
import Verif.Props.C35
import Verif.Props.C36
import Verif.Props.C37_C38
import Verif.Props.C39_C40
import Verif.Props.C41
import Verif.Props.C42_C43
import Verif.Props.C44_C45
import Verif.Props.C44_text
import Verif.Props.C45_text
import Verif.Props.C46
import Verif.Props.C47
import Verif.Props.C48_C49
import Verif.Props.C50_C51
import Verif.Props.C52
import Verif.Props.C53_C54
import Verif.Props.C55_C56
import Verif.Props.C57
import Verif.Props.C58
import Verif.Props.C59_C61
import Verif.Props.C62
import Verif.Props.C63
import Verif.Props.C64
import Verif.Props.C65_C66
import Verif.Props.C67_C68
import Verif.Props.C69
import Verif.Props.C70
import Verif.Props.C71
import Verif.Props.C72
import Verif.Props.C74
import Verif.Props.C75
import Verif.Props.C77
import Verif.Props.C78
import Verif.Props.C79_C80
import Verif.Props.C81_C82
import Verif.Props.C83
import Verif.Props.C85
import Verif.Props.C86
import Verif.Props.C87_C88
import Verif.Props.C89
import Verif.Props.C91
import Verif.Props.C92
import Verif.Props.C93
import Verif.Props.C94
import Verif.Props.C95
import Verif.Props.C96
import Verif.Props.C97
import Verif.Props.C98
import Verif.Props.C99
